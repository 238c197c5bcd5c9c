import Verif.Proofs.ParseHeapBase
/-
The parser of expressions with its memory: it parses as the one without, and what is there afterwards is what was there before, the
new expression, and, after an error, what was lost.
-/
namespace Skull.PHeap

open Skull.Spec

def cntO : Option HExpr → Count
  | none => fun _ => 0
  | some e => e.cnt

/-- What holds when an expression was parsed from `h` on, where the blocks `c` were there. -/
structure Res (n : Nat) (h : HS) (c : Count) (a : Option HExpr) (h' : HS) : Prop where
  suf : h'.ps.toks <:+ h.ps.toks
  err : h'.ps.err = false → h.ps.err = false
  own : ∃ lk : Count, Holds h' (fun x => cntO a x + (lk x + c x)) ∧ (h'.ps.err = false → ∀ x, lk x = 0)
  fit : ∀ e, a = some e → e.Within n ∧ e ≠ .missing

/-- Both parsers do the same. -/
inductive Both (R : Option HExpr → HS → Prop) : HP (Option HExpr) → P (Option Expr) → Prop
  | ok {a h} : R a h → Both R (.ok a h) (.ok (a.map HExpr.plain) h.ps)
  | ub : Both R .ub .ub
  | fuel : Both R .fuel .fuel

theorem Both.of {R : Option HExpr → HS → Prop} {a h a' s} (r : R a h) (h1 : a.map HExpr.plain = a') (h2 : h.ps = s) : Both R (.ok a h) (.ok a' s) := by
  subst h1 h2; exact .ok r

theorem Both.mono {R S : Option HExpr → HS → Prop} {r p} (h : Both R r p) (hi : ∀ a h, R a h → S a h) : Both S r p := by
  cases h with
  | ok h => exact .ok (hi _ _ h)
  | ub => exact .ub
  | fuel => exact .fuel

/-- The same from an earlier state on. -/
theorem Res.back {n h h0 c a h'} (r : Res n h c a h') (hs : h.ps.toks <:+ h0.ps.toks) (he : h.ps.err = false → h0.ps.err = false) :
    Res n h0 c a h' := ⟨r.suf.trans hs, fun h => he (r.err h), r.own, r.fit⟩

/-- What was lost by then stays lost. -/
theorem Res.lost {n h c a h'} {d : Count} (r : Res n h (fun x => d x + c x) a h') (hd : h'.ps.err = false → ∀ x, d x = 0) : Res n h c a h' := by
  obtain ⟨lk, h1, h2⟩ := r.own
  refine ⟨r.suf, r.err, ⟨fun x => lk x + d x, h1.cast fun x => by dsimp only; omega, fun he x => ?_⟩, r.fit⟩
  dsimp only
  rw [h2 he x, hd he x]

theorem freeHead_post {n : Nat} {head : Option Nat} {cur : HExpr} {h h0 : HS} {c lk : Count} (hw : cur.Within n) (ht : Toks n c)
    (hh : Holds h (fun x => cur.cnt x + (lk x + c x))) (ha : (cur.at? head).isSome) (he : h.ps.err = true)
    (hs : h.ps.toks <:+ h0.ps.toks) : Both (Res n h0 c) (freeHead head cur h) (.ok none h.ps) := by
  unfold freeHead
  cases hc : cur.at? head with
  | none => rw [hc] at ha; cases ha
  | some e =>
    obtain ⟨⟨r, hr⟩, hw'⟩ := HExpr.at?_part (n := n) hc
    have hf := e.runs_free (fun x => r x + lk x + c x) (hw' hw) (ht.mono fun x => by omega)
    have hh' := (hh.cast (c' := fun x => e.cnt x + (r x + lk x + c x)) fun x => by rw [hr x]; omega).log hf
    refine Both.of ⟨hs, fun h1 => ?_, ⟨fun x => r x + lk x, hh'.cast fun x => by simp [cntO], fun h1 => ?_⟩, fun e h => by cases h⟩ rfl rfl
    · have h1 : h.ps.err = false := h1
      rw [he] at h1; cases h1
    · have h1 : h.ps.err = false := h1
      rw [he] at h1; cases h1

/-- What every function of the parser of expressions does. -/
structure Spec (n f : Nat) : Prop where
  expression : ∀ h c, h.ps.toks.length ≤ n → Toks n c → Holds h c → Both (Res n h c) (parseExpressionH f h) (parseExpression f h.ps)
  loop : ∀ head cur h c, h.ps.err = false → h.ps.toks.length ≤ n → Toks n c → cur.Within n → cur ≠ .missing → (cur.at? head).isSome →
    Holds h (fun x => cur.cnt x + c x) → Both (Res n h c) (parseRhsLoopH f head cur h) (parseRhsLoop f cur.plain h.ps)
  single : ∀ h c, h.ps.toks.length ≤ n → Toks n c → Holds h c → Both (Res n h c) (parseSingleH f h) (parseSingle f h.ps)
  root : ∀ h c, h.ps.toks.length ≤ n → Toks n c → Holds h c → Both (Res n h c) (parseRootH f h) (parseRoot f h.ps)
  args : ∀ name as num h c, h.ps.toks.length ≤ n → Toks n c → as.Within n → Holds h (fun x => as.cnt x + c x) →
    Both (Res n h c) (parseArgsH f name as num h) (parseArgs f name as.plain num h.ps)

theorem res_id {n h c} (hh : Holds h c) : Res n h c none h :=
  ⟨List.suffix_refl _, id, ⟨fun _ => 0, hh.cast fun x => by simp [cntO], fun _ _ => rfl⟩, fun e h => by cases h⟩

theorem len_le {h h' : HS} {n : Nat} (hs : h'.ps.toks <:+ h.ps.toks) (hl : h.ps.toks.length ≤ n) : h'.ps.toks.length ≤ n :=
  Nat.le_trans hs.length_le hl

theorem holds_setToks {h : HS} {c : Count} (hh : Holds h c) (toks) : Holds (h.setToks toks) c := hh
theorem holds_fail {h : HS} {c : Count} (hh : Holds h c) (code t) : Holds (h.fail code t) c := hh

theorem spec_expression {n f : Nat} (ih : Spec n f) (h : HS) (c : Count) (hl : h.ps.toks.length ≤ n) (ht : Toks n c) (hh : Holds h c) :
    Both (Res n h c) (parseExpressionH (f + 1) h) (parseExpression (f + 1) h.ps) := by
  unfold parseExpressionH parseExpression
  cases htk : h.ps.toks with
  | nil => exact .of (res_id hh) rfl rfl
  | cons t rest =>
    dsimp only
    have h1 := ih.single h c hl ht hh
    generalize parseSingleH f h = r at h1 ⊢
    generalize parseSingle f h.ps = p at h1 ⊢
    cases h1 with
    | ub => exact .ub
    | fuel => exact .fuel
    | @ok a h' r =>
      dsimp only
      obtain ⟨lk, ho, hk⟩ := r.own
      by_cases he : h'.ps.err = true
      · rw [if_pos he, if_pos he]
        refine .of ⟨r.suf, r.err, ⟨fun x => cntO a x + lk x, ho.cast fun x => ?_, fun h => ?_⟩, fun e h => by cases h⟩ rfl rfl
        · simp only [cntO]; omega
        · rw [he] at h; cases h
      · rw [if_neg he, if_neg he]
        have he' : h'.ps.err = false := by simpa using he
        cases a with
        | none => exact .ok r
        | some e =>
          have hlk := hk he'
          refine (ih.loop e.block e h' c he' (len_le r.suf hl) ht (r.fit e rfl).1 (r.fit e rfl).2 ?_ ?_).mono fun a h2 r2 => r2.back r.suf r.err
          · rw [e.at?_self]; rfl
          · exact ho.cast fun x => by simp [cntO, hlk x]

theorem spec_loop {n f : Nat} (ih : Spec n f) (head : Option Nat) (cur : HExpr) (h : HS) (c : Count) (he : h.ps.err = false)
    (hl : h.ps.toks.length ≤ n) (ht : Toks n c) (hw : cur.Within n) (hm : cur ≠ .missing) (ha : (cur.at? head).isSome)
    (hh : Holds h (fun x => cur.cnt x + c x)) :
    Both (Res n h c) (parseRhsLoopH (f + 1) head cur h) (parseRhsLoop (f + 1) cur.plain h.ps) := by
  unfold parseRhsLoopH parseRhsLoop
  have hdone : Res n h c (some cur) h :=
    ⟨List.suffix_refl _, id, ⟨fun _ => 0, hh.cast fun x => by simp [cntO], fun _ _ => rfl⟩, fun e h => by cases h; exact ⟨hw, hm⟩⟩
  cases htk : h.ps.toks with
  | nil => exact .of hdone rfl rfl
  | cons t rest =>
    dsimp only
    by_cases h1 : binaryOper t.ty = .unknown
    · rw [if_pos h1, if_pos h1]; exact .of hdone rfl rfl
    · rw [if_neg h1, if_neg h1]
      by_cases h2 : isUnaryOper (binaryOper t.ty) = true
      · rw [if_pos h2, if_pos h2]
        exact freeHead_post (h := h.fail .errUnexpectedUnaryExpr t) (lk := fun _ => 0) hw ht (hh.cast fun x => by simp) ha rfl (List.suffix_refl _)
      · rw [if_neg h2, if_neg h2]
        have hsuf : rest <:+ h.ps.toks := by rw [htk]; exact List.suffix_cons _ _
        have h3 := ih.single (h.setToks rest) (fun x => cur.cnt x + c x) (Nat.le_trans hsuf.length_le hl) (ht.add _) hh
        rw [show (h.setToks rest).ps = { h.ps with toks := rest } from rfl] at h3
        generalize parseSingleH f (h.setToks rest) = r at h3 ⊢
        generalize parseSingle f { h.ps with toks := rest } = p at h3 ⊢
        cases h3 with
        | ub => exact .ub
        | fuel => exact .fuel
        | @ok a h' r =>
          obtain ⟨lk, ho, hk⟩ := r.own
          have hsuf' : h'.ps.toks <:+ h.ps.toks := r.suf.trans hsuf
          cases a with
          | none =>
            exact freeHead_post (h := h'.fail .errExpectedExpr t) (lk := lk) hw ht
              (holds_fail (ho.cast fun x => by simp only [cntO]; omega) _ _) ha rfl hsuf'
          | some rhs =>
            show Both _ (if _ then _ else _) (if _ then _ else _)
            have ho' := ho.alloc
            by_cases he' : h'.ps.err = true
            · rw [if_pos he', if_pos he']
              exact freeHead_post (h := h'.alloc) (lk := fun x => one (.mem h'.next) x + rhs.cnt x + lk x) hw ht
                (ho'.cast fun x => by simp only [cntO]; omega) ha he' hsuf'
            · rw [if_neg he', if_neg he']
              have he'' : h'.ps.err = false := by simpa using he'
              have hlk := hk he''
              have ho2 : Holds h'.alloc (fun x => (attachH cur h'.next (binaryOper t.ty) rhs).cnt x + c x) :=
                ho'.cast fun x => by simp only [cntO, attachH_cnt, hlk x]; omega
              have ho3 := ho2.log (es := attachLog cur h'.next) (runs_attachLog (fun x => by rw [attachH_cnt]; omega)
                (by rw [attachH_cnt, one_self]; omega))
              have h4 := ih.loop head (attachH cur h'.next (binaryOper t.ty) rhs) (h'.alloc.log (attachLog cur h'.next)) c he''
                (Nat.le_trans hsuf'.length_le hl) ht (attachH_within hw (r.fit rhs rfl).1) attachH_ne (attachH_at? ha) ho3
              rw [attachH_plain] at h4
              exact h4.mono fun a h2 r2 => r2.back hsuf' r.err

theorem spec_single {n f : Nat} (ih : Spec n f) (h : HS) (c : Count) (hl : h.ps.toks.length ≤ n) (ht : Toks n c) (hh : Holds h c) :
    Both (Res n h c) (parseSingleH (f + 1) h) (parseSingle (f + 1) h.ps) := by
  unfold parseSingleH parseSingle
  cases htk : h.ps.toks with
  | nil => exact .of (res_id hh) rfl rfl
  | cons t rest =>
    dsimp only
    by_cases h1 : unaryOper t.ty = .unknown
    · rw [if_pos h1, if_pos h1]; exact ih.root h c hl ht hh
    · rw [if_neg h1, if_neg h1]
      cases rest with
      | nil =>
        refine .of ⟨List.nil_suffix, (fun h => by cases h), ⟨fun _ => 0, holds_fail (holds_setToks hh []) _ _ |>.cast fun x => by simp [cntO], fun _ _ => rfl⟩,
          fun e h => by cases h⟩ rfl rfl
      | cons t2 rest =>
        have hsuf : t2 :: rest <:+ h.ps.toks := by rw [htk]; exact List.suffix_cons _ _
        dsimp only
        by_cases h2 : unaryOper t2.ty ≠ .unknown
        · rw [if_pos h2, if_pos h2]
          refine .of ⟨hsuf, (fun h => by cases h), ⟨fun _ => 0, hh.cast fun x => by simp [cntO], fun _ _ => rfl⟩, fun e h => by cases h⟩ rfl rfl
        · rw [if_neg h2, if_neg h2]
          have hh' := (holds_setToks hh (t2 :: rest)).alloc
          have h3 := ih.root (h.setToks (t2 :: rest)).alloc (fun x => one (.mem h.next) x + c x) (Nat.le_trans hsuf.length_le hl) (ht.add _) hh'
          rw [show (h.setToks (t2 :: rest)).alloc.ps = { h.ps with toks := t2 :: rest } from rfl] at h3
          generalize parseRootH f (h.setToks (t2 :: rest)).alloc = r at h3 ⊢
          generalize parseRoot f { h.ps with toks := t2 :: rest } = p at h3 ⊢
          cases h3 with
          | ub => exact .ub
          | fuel => exact .fuel
          | @ok a h' r =>
            obtain ⟨lk, ho, hk⟩ := r.own
            have hsuf' : h'.ps.toks <:+ h.ps.toks := r.suf.trans hsuf
            have hu : Holds (h'.log [.use (.mem h.next)]) _ := ho.use (b := .mem h.next) (by simp only [one_self]; omega)
            cases a with
            | none =>
              refine .of ⟨hsuf', r.err, ⟨lk, hu.cast fun x => ?_, hk⟩, fun e h => ?_⟩ rfl rfl
              · simp only [cntO, HExpr.cnt]; omega
              · cases h; exact ⟨trivial, by simp⟩
            | some e =>
              refine .of ⟨hsuf', r.err, ⟨lk, hu.cast fun x => ?_, hk⟩, fun e' h => ?_⟩ rfl rfl
              · simp only [cntO, HExpr.cnt]; omega
              · cases h; exact ⟨(r.fit e rfl).1, by simp⟩

theorem spec_root {n f : Nat} (ih : Spec n f) (h : HS) (c : Count) (hl : h.ps.toks.length ≤ n) (ht : Toks n c) (hh : Holds h c) :
    Both (Res n h c) (parseRootH (f + 1) h) (parseRoot (f + 1) h.ps) := by
  unfold parseRootH parseRoot
  cases htk : h.ps.toks with
  | nil => exact .ub
  | cons t rest =>
    have hsuf : rest <:+ h.ps.toks := by rw [htk]; exact List.suffix_cons _ _
    have hlr := Nat.le_trans hsuf.length_le hl
    dsimp only
    by_cases h1 : t.ty = .parenOpen
    · rw [if_pos h1, if_pos h1]
      have h3 := ih.expression (h.setToks rest) c hlr ht hh
      rw [show (h.setToks rest).ps = { h.ps with toks := rest } from rfl] at h3
      generalize parseExpressionH f (h.setToks rest) = r at h3 ⊢
      generalize parseExpression f { h.ps with toks := rest } = p at h3 ⊢
      cases h3 with
      | ub => exact .ub
      | fuel => exact .fuel
      | @ok a h' r =>
        obtain ⟨lk, ho, hk⟩ := r.own
        have hsuf' : h'.ps.toks <:+ h.ps.toks := r.suf.trans hsuf
        cases a with
        | none =>
          exact .of ⟨hsuf', (fun h => by cases h), ⟨lk, holds_fail ho _ _, fun h => by cases h⟩, fun e h => by cases h⟩ rfl rfl
        | some e =>
          have hf := (holds_fail ho .errMissingClosingParen t).log (e.runs_free (fun x => lk x + c x) (r.fit e rfl).1 (ht.add _))
          have herr : Res n h c none ((h'.fail .errMissingClosingParen t).log e.free) :=
            ⟨hsuf', (fun h => by cases h), ⟨lk, hf.cast fun x => by simp [cntO], fun h => by cases h⟩, fun e h => by cases h⟩
          show Both _ (match h'.ps.toks with | [] => _ | c :: rest' => _) (match h'.ps.toks with | [] => _ | c :: rest' => _)
          cases htk' : h'.ps.toks with
          | nil => exact .of herr rfl rfl
          | cons t' rest' =>
            dsimp only
            by_cases h2 : t'.ty ≠ .parenClose
            · rw [if_pos h2, if_pos h2]; exact .of herr rfl rfl
            · rw [if_neg h2, if_neg h2]
              refine .of ⟨?_, r.err, ⟨lk, holds_setToks ho rest', hk⟩, r.fit⟩ rfl rfl
              rw [htk'] at hsuf'
              exact (List.suffix_cons _ _).trans hsuf'
    · rw [if_neg h1, if_neg h1]
      by_cases h2 : (isIdentLike t && decide ((rest.head?.map (·.ty)) = some .parenOpen)) = true
      · rw [if_pos h2, if_pos h2]
        have hsuf' : rest.tail <:+ h.ps.toks := (List.tail_suffix rest).trans hsuf
        exact (ih.args t (.last h.next) 0 (h.setToks rest.tail).alloc c (Nat.le_trans hsuf'.length_le hl) ht trivial
          (holds_setToks hh rest.tail).alloc).mono fun a h2 r2 => r2.back hsuf' id
      · rw [if_neg h2, if_neg h2]
        by_cases h3 : isSingleTokenExpr t.ty = true
        · rw [if_pos h3, if_pos h3]
          have hh' := (holds_setToks hh rest).alloc
          have hlen : rest.length + 1 ≤ n := by rw [htk] at hl; exact hl
          by_cases h4 : isIdentLike t = true
          · rw [if_pos h4, if_pos h4]
            refine .of ⟨hsuf, id, ⟨fun _ => 0, hh'.cast fun x => ?_, fun _ _ => rfl⟩, fun e h => ?_⟩ rfl rfl
            · simp [cntO, HExpr.cnt, HS.setToks]
            · cases h; exact ⟨trivial, by simp⟩
          · rw [if_neg h4, if_neg h4]
            refine .of ⟨hsuf, id, ⟨fun _ => 0, hh'.cast fun x => ?_, fun _ _ => rfl⟩, fun e h => ?_⟩ rfl rfl
            · simp [cntO, HExpr.cnt, HS.setToks]
            · cases h; exact ⟨⟨by omega, hlen⟩, by simp⟩
        · rw [if_neg h3, if_neg h3]; exact .of (res_id hh) rfl rfl

theorem spec_args {n f : Nat} (ih : Spec n f) (name : Token) (as : HArgs) (num : Nat) (h : HS) (c : Count) (hl : h.ps.toks.length ≤ n)
    (ht : Toks n c) (hw : as.Within n) (hh : Holds h (fun x => as.cnt x + c x)) :
    Both (Res n h c) (parseArgsH (f + 1) name as num h) (parseArgs (f + 1) name as.plain num h.ps) := by
  have herr : ∀ (as : HArgs) (h' : HS) (lk : Count) code t, as.Within n → h'.ps.toks <:+ h.ps.toks →
      Holds h' (fun x => as.cnt x + (lk x + c x)) → Res n h c none ((h'.fail code t).log as.free) := by
    intro as h' lk code t hw hs hh
    have hf := (holds_fail hh code t).log (as.runs_free (fun x => lk x + c x) hw (ht.add _))
    exact ⟨hs, (fun h => by cases h), ⟨lk, hf.cast fun x => by simp [cntO], fun h => by cases h⟩, fun e h => by cases h⟩
  unfold parseArgsH parseArgs
  cases htk : h.ps.toks with
  | nil => exact .of (herr as h (fun _ => 0) _ _ hw (List.suffix_refl _) (hh.cast fun x => by simp)) rfl rfl
  | cons last rest =>
    dsimp only
    by_cases h1 : last.ty = .comma
    · rw [if_pos h1, if_pos h1]
      exact .of (herr as h (fun _ => 0) _ _ hw (List.suffix_refl _) (hh.cast fun x => by simp)) rfl rfl
    · rw [if_neg h1, if_neg h1]
      have h3 := ih.expression h (fun x => as.cnt x + c x) hl (ht.add _) hh
      generalize parseExpressionH f h = r at h3 ⊢
      generalize parseExpression f h.ps = p at h3 ⊢
      cases h3 with
      | ub => exact .ub
      | fuel => exact .fuel
      | @ok a h' r =>
        obtain ⟨lk, ho, hk⟩ := r.own
        -- the rest of the loop, for the list of arguments there is now
        have key : ∀ (as' : HArgs) (num' : Nat) (h2 : HS), as'.Within n → h2.ps = h'.ps → Holds h2 (fun x => as'.cnt x + (lk x + c x)) →
            Both (Res n h c)
              (match h2.ps.toks with
                | [] => .ok none ((h2.fail .errMissingClosingParen last).log as'.free)
                | t :: rest =>
                  if t.ty = .newline then .ok none ((h2.fail .errMissingClosingParen t).log as'.free)
                  else if t.ty = .parenClose then
                    .ok (some (.call h2.next (h2.next + 1) name as' num')) (h2.setToks rest).alloc.alloc
                  else if t.ty ≠ .comma then .ok none ((h2.fail .errExpectedComma t).log as'.free)
                  else parseArgsH f name as' num' (h2.setToks rest))
              (match h'.ps.toks with
                | [] => .ok none (h'.ps.fail .errMissingClosingParen last)
                | t :: rest =>
                  if t.ty = .newline then .ok none (h'.ps.fail .errMissingClosingParen t)
                  else if t.ty = .parenClose then .ok (some (.call name as'.plain num')) { h'.ps with toks := rest }
                  else if t.ty ≠ .comma then .ok none (h'.ps.fail .errExpectedComma t)
                  else parseArgs f name as'.plain num' { h'.ps with toks := rest }) := by
          intro as' num' h2 hw' hps hh2
          have hs2 : h2.ps.toks <:+ h.ps.toks := by rw [hps]; exact r.suf
          rw [hps]
          cases htk2 : h'.ps.toks with
          | nil => exact .of (herr as' h2 lk _ _ hw' hs2 hh2) rfl (by show h2.ps.fail _ _ = _; rw [hps])
          | cons t rest' =>
            have hsr : rest' <:+ h.ps.toks := by
              rw [hps, htk2] at hs2
              exact (List.suffix_cons _ _).trans hs2
            dsimp only
            by_cases g1 : t.ty = .newline
            · rw [if_pos g1, if_pos g1]
              exact .of (herr as' h2 lk _ _ hw' hs2 hh2) rfl (by show h2.ps.fail _ _ = _; rw [hps])
            · rw [if_neg g1, if_neg g1]
              by_cases g2 : t.ty = .parenClose
              · rw [if_pos g2, if_pos g2]
                refine .of ⟨hsr, ?_, ⟨lk, (holds_setToks hh2 rest').alloc.alloc.cast fun x => ?_, ?_⟩, fun e h => ?_⟩ rfl ?_
                · intro h; exact r.err (by rw [← hps]; exact h)
                · show one (.mem (h2.next + 1)) x + (one (.mem h2.next) x + _) = one (.mem h2.next) x + one (.mem (h2.next + 1)) x + as'.cnt x + _
                  omega
                · intro h; exact hk (by rw [← hps]; exact h)
                · cases h; exact ⟨hw', by simp⟩
                · show { h2.ps with toks := rest' } = _
                  rw [hps]
              · rw [if_neg g2, if_neg g2]
                by_cases g3 : t.ty ≠ .comma
                · rw [if_pos g3, if_pos g3]
                  exact .of (herr as' h2 lk _ _ hw' hs2 hh2) rfl (by show h2.ps.fail _ _ = _; rw [hps])
                · rw [if_neg g3, if_neg g3]
                  have h4 := ih.args name as' num' (h2.setToks rest') (fun x => lk x + c x) (Nat.le_trans hsr.length_le hl) (ht.add _) hw' hh2
                  rw [show (h2.setToks rest').ps = { h'.ps with toks := rest' } from by show { h2.ps with toks := rest' } = _; rw [hps]] at h4
                  refine h4.mono fun a h5 r5 => ?_
                  have he5 : h5.ps.err = false → h'.ps.err = false := fun h => by rw [← hps]; exact r5.err h
                  exact (r5.lost fun h => hk (he5 h)).back hsr fun h => r.err (by rw [← hps]; exact h)
        cases a with
        | none => exact key as num h' hw rfl (ho.cast fun x => by simp only [cntO]; omega)
        | some e =>
          have ho2 := ho.alloc.log (es := [.use (.mem as.lastBlock)]) (Runs.use (by have := as.lastBlock_cnt; omega) (Runs.nil _))
          have h5 := key (as.snoc last e h'.next) ((num + 1) % 65536) (h'.alloc.log [.use (.mem as.lastBlock)]) (as.snoc_within (r.fit e rfl).1 hw) rfl
            (ho2.cast fun x => by simp only [cntO, HArgs.snoc_cnt]; omega)
          rw [as.snoc_plain] at h5
          exact h5

theorem spec (n : Nat) : ∀ f, Spec n f
  | 0 => ⟨fun _ _ _ _ _ => .fuel, fun _ _ _ _ _ _ _ _ _ _ _ => .fuel, fun _ _ _ _ _ => .fuel, fun _ _ _ _ _ => .fuel,
      fun _ _ _ _ _ _ _ _ _ => .fuel⟩
  | f + 1 => ⟨spec_expression (spec n f), spec_loop (spec n f), spec_single (spec n f), spec_root (spec n f), spec_args (spec n f)⟩

theorem parseExprH_post {n : Nat} {h : HS} {c : Count} (hl : h.ps.toks.length ≤ n) (ht : Toks n c) (hh : Holds h c) :
    Both (Res n h c) (parseExprH h) (parseExpr h.ps) := (spec n _).expression h c hl ht hh

end Skull.PHeap
