import Verif.Proofs.ParseHeapNode
import Verif.Proofs.ParseHeapBrace
import Verif.Proofs.ParseKnown
/-
Blocks and whole programs: the parser with its memory.
-/
namespace Skull.PHeap

open Skull.Spec

variable {all : List Token}

def cntT : Option HTree → Count
  | none => fun _ => 0
  | some t => t.cnt

/-- The block that was read last hangs on the statement before it, or on the head. -/
def Hung (c : HCtx) : Prop :=
  match c.done with
  | [] => c.headChild ≠ .nil
  | n :: _ => n.child ≠ .nil

/-- Where a block comes right after another one memory was lost, or that place is still to come. -/
def Found (all start : List Token) (lk : Count) (c : HCtx) : Prop :=
  c.hs.ps.err = false → NamespacesNamed all → blockAfterBlock false start = true →
    (∃ x, lk x ≠ 0) ∨ ∃ st, blockAfterBlock st c.hs.ps.toks = true ∧ (st = true → Hung c)

theorem Found.err {start lk c} (h : c.hs.ps.err = true) : Found all start lk c := fun h' => by rw [h] at h'; cases h'

/-- What holds when a list of statements was parsed, where the blocks `F` were there. -/
structure TreeR (all : List Token) (F : Count) (start : List Token) (lvl : Nat) (t : Option HTree) (h : HS) : Prop where
  suf : h.ps.toks <:+ all
  own : ∃ lk : Count, Holds h (fun x => cntT t x + (lk x + F x)) ∧ (h.ps.err = false → Tidy all → ∀ x, lk x = 0) ∧
    (h.ps.err = false → NamespacesNamed all → blockAfterBlock false start = true →
      (∃ x, lk x ≠ 0) ∨ ∃ st, blockAfterBlock st h.ps.toks = true)
  fit : ∀ t', t = some t' → t'.Within all.length
  close : ∀ t', t = some t' → h.ps.err = false ∧ (lvl ≠ 0 → ∃ a rest, h.ps.toks = a :: rest ∧ a.ty = .bracketClose)
  none : t = none → h.ps.err = true

inductive BothT (R : Option HTree → HS → Prop) : HTRes → TRes → Prop
  | ok {t h} : R t h → BothT R (.ok t h) (.ok (t.map HTree.plain) h.ps)
  | ub : BothT R .ub .ub
  | fuel : BothT R .fuel .fuel

theorem BothT.of {R : Option HTree → HS → Prop} {t h t' s} (r : R t h) (h1 : t.map HTree.plain = t') (h2 : h.ps = s) : BothT R (.ok t h) (.ok t' s) := by
  subst h1 h2; exact .ok r

/-- What holds after each step in a list of statements that begins at `start`. -/
def Went (all : List Token) (F : Count) (start : List Token) (d : Bool) (c : HCtx) : Prop :=
  (∃ lk, Inv all F lk c ∧ Found all start lk c) ∧
    (d = true → c.hs.ps.err = false → ∃ t rest, c.hs.ps.toks = t :: rest ∧ t.ty = .bracketClose)

theorem went_false {F start lk c} (h : Inv all F lk c) (h2 : Found all start lk c) : Went all F start false c := ⟨⟨lk, h, h2⟩, fun h => by cases h⟩

/-- The end of a list of statements: a closing bracket, or the end of the file. -/
def Ends (all : List Token) (F : Count) (start : List Token) (d : Bool) (c : HCtx) : Prop :=
  Went all F start d c ∧ (d = false → c.hs.ps.err = false → c.hs.ps.toks = [])

/-- After a statement. -/
theorem stmt_went {F start lk c r p} (hi : Inv all F lk c) (hf : Found all start lk c) (he : c.hs.ps.err = false)
    (hb : Inv all (fun x => lk x + F x) (fun _ => 0) c → BothN (Next all (fun x => lk x + F x)) r p) (hp : NResOk c.plain p) :
    BothN (Went all F start) r p := by
  have h0 : Inv all (fun x => lk x + F x) (fun _ => 0) c :=
    ⟨hi.suf, hi.own.cast fun x => by omega, hi.nodes, hi.head, hi.shape, fun _ _ _ => rfl, hi.after⟩
  cases hb h0 with
  | ub => exact .ub
  | fuel => exact .fuel
  | @ok d c1 c1' hr hsame =>
    obtain ⟨⟨lk', h1⟩, h2⟩ := hr
    obtain ⟨rfl, hpost⟩ := hp d c1' rfl
    refine .ok (went_false (lk := fun x => lk' x + lk x) ⟨h1.suf, h1.own.cast fun x => by omega, h1.nodes, h1.head, h1.shape, ?_, h1.after⟩ ?_) hsame
    · intro he1 hT x
      rw [h1.lost he1 hT x, hi.lost he hT x]
    · intro he1 hn hb1
      rcases hf he hn hb1 with ⟨x, hx⟩ | ⟨st, hst, _⟩
      · exact Or.inl ⟨x, by dsimp only; omega⟩
      · obtain ⟨_, _, hw, _⟩ := hpost.ok (by rw [← hsame.ps]; exact he1)
        refine Or.inr ⟨false, ?_, fun h => by cases h⟩
        rw [hsame.ps]
        refine written_skip hw ?_ st hst
        intro t n post ht hk
        obtain ⟨pre, hpre⟩ := hi.suf
        have ht : c.hs.ps.toks = t :: n :: post := ht
        exact hn pre t n post (by rw [← ht]; exact hpre.symm) hk

structure TSpec (all : List Token) (f : Nat) : Prop where
  tree : ∀ F lvl h, Toks all.length F → h.ps.err = false → h.ps.toks <:+ all → Holds h F →
    BothT (TreeR all F h.ps.toks lvl) (parseTreeH f lvl h) (parseTree f lvl h.ps)
  nodes : ∀ F lvl lk start c, Toks all.length F → c.hs.ps.err = false → Inv all F lk c → Found all start lk c →
    BothN (Ends all F start) (parseNodesH f lvl c) (parseNodes f lvl c.plain)
  node : ∀ F lvl lk start c, Toks all.length F → c.hs.ps.err = false → Inv all F lk c → Found all start lk c →
    BothN (Went all F start) (parseNodeH f lvl c) (parseNode f lvl c.plain)
  sub : ∀ F lvl lk start c, Toks all.length F → c.hs.ps.err = false → Inv all F lk c → Found all start lk c →
    (∀ t ∈ c.hs.ps.toks.head?, t.ty = .bracketOpen) →
    BothN (Went all F start) (parseSubTreeH f lvl c) (parseSubTree f lvl c.plain)

theorem linkNodesH_cnt (x : Block) : ∀ (ns : List HNode) (acc : HTree), (linkNodesH ns acc).cnt x = nodesCnt ns x + acc.cnt x
  | [], acc => by simp [linkNodesH, nodesCnt]
  | n :: ns, acc => by
    rw [linkNodesH, linkNodesH_cnt x ns]
    simp only [nodesCnt, HNode.cnt, HTree.cnt]
    omega

theorem linkNodesH_within {k : Nat} : ∀ (ns : List HNode) (acc : HTree), (∀ n ∈ ns, n.stmt.Within k ∧ n.child.Within k) → acc.Within k →
    (linkNodesH ns acc).Within k
  | [], _, _, h => h
  | n :: ns, acc, hn, h => by
    rw [linkNodesH]
    refine linkNodesH_within ns _ (fun m hm => hn m (List.mem_cons_of_mem _ hm)) ?_
    have := hn n List.mem_cons_self
    exact ⟨this.1, this.2, h⟩

theorem linkNodesH_plain : ∀ (ns : List HNode) (acc : HTree), (linkNodesH ns acc).plain = linkNodes (ns.map HNode.plain) acc.plain
  | [], _ => rfl
  | n :: ns, acc => by
    rw [linkNodesH, linkNodesH_plain ns]
    rfl

theorem close_plain (c : HCtx) : c.close.1.plain = c.plain.tree := by
  obtain ⟨hs, done, node, hc⟩ := c
  cases done with
  | nil => rfl
  | cons n ns =>
    show (linkNodesH (n :: ns) .nil).plain = linkNodes ((n :: ns).map HNode.plain) .nil
    rw [linkNodesH_plain]
    rfl

theorem close_ps (c : HCtx) : c.close.2.ps = c.hs.ps := by
  obtain ⟨hs, done, node, hc⟩ := c
  cases done <;> rfl

theorem chain_cnt (c : HCtx) (x : Block) : c.chain.cnt x = c.cnt x := by
  unfold HCtx.chain
  rw [linkNodesH_cnt]
  simp only [HTree.cnt, HStmt.cnt, HCtx.cnt]
  omega

theorem close_ok {F lk c} (h : Inv all F lk c) : Holds c.close.2 (fun x => c.close.1.cnt x + (lk x + F x)) ∧ c.close.1.Within all.length := by
  obtain ⟨hs, done, node, hc⟩ := c
  cases done with
  | nil => exact ⟨h.own.cast fun x => by simp only [HCtx.cnt, HCtx.close, HTree.cnt, HStmt.cnt, nodesCnt]; omega, trivial, h.head, trivial⟩
  | cons n ns =>
    have hn : hc = .nil := by
      rcases h.shape with h | h
      · cases h
      · exact h
    subst hn
    refine ⟨?_, linkNodesH_within (n :: ns) .nil h.nodes trivial⟩
    have h1 : Holds hs (fun x => one (.mem node) x + (nodesCnt (n :: ns) x + (lk x + F x))) :=
      h.own.cast fun x => by simp only [HCtx.cnt, HTree.cnt]; omega
    have h2 := h1.log (es := [.use (.mem node), .use (.mem n.b), .free (.mem node)]) (Runs.use (by simp only [one_self]; omega)
      (Runs.use (by simp only [nodesCnt, HNode.cnt, one_self]; omega) (Runs.free (Runs.nil _))))
    refine h2.cast fun x => ?_
    show _ = (linkNodesH (n :: ns) .nil).cnt x + _
    rw [linkNodesH_cnt]
    simp [HTree.cnt]

theorem spec_tree {f : Nat} (ih : TSpec all f) (F : Count) (lvl : Nat) (h : HS) (ht : Toks all.length F) (he : h.ps.err = false)
    (hs : h.ps.toks <:+ all) (hh : Holds h F) : BothT (TreeR all F h.ps.toks lvl) (parseTreeH (f + 1) lvl h) (parseTree (f + 1) lvl h.ps) := by
  unfold parseTreeH parseTree
  have hi : Inv all F (fun _ => 0) { hs := h.alloc, node := h.next } :=
    ⟨hs, hh.alloc.cast fun x => by simp [HCtx.cnt, nodesCnt, HTree.cnt], (fun n hn => by cases hn), trivial, Or.inl rfl, fun _ _ _ => rfl,
      fun _ hn => absurd rfl hn⟩
  have h1 := ih.nodes F lvl _ h.ps.toks _ ht he hi fun _ _ hb => Or.inr ⟨false, hb, fun h => by cases h⟩
  rw [show ({ hs := h.alloc, node := h.next } : HCtx).plain = { ps := h.ps } from rfl] at h1
  generalize parseNodesH f lvl { hs := h.alloc, node := h.next } = r at h1 ⊢
  generalize parseNodes f lvl { ps := h.ps } = p at h1 ⊢
  cases h1 with
  | ub => exact .ub
  | fuel => exact .fuel
  | @ok d c c' hr hsame =>
    obtain ⟨⟨⟨lk, hi, hfd⟩, hcl⟩, hend⟩ := hr
    dsimp only
    rw [← hsame.ps]
    have hfree : Holds (c.hs.log c.chain.free) (fun x => lk x + F x) := by
      refine (hi.own.cast (c' := fun x => c.chain.cnt x + (lk x + F x)) fun x => by rw [chain_cnt]).log
        (c.chain.runs_free (n := all.length) _ ?_ (ht.add _))
      exact linkNodesH_within _ _ hi.nodes ⟨trivial, hi.head, trivial⟩
    by_cases he' : c.hs.ps.err = true
    · rw [if_pos he', if_pos he']
      refine .of ⟨hi.suf, ⟨lk, hfree.cast fun x => by simp [cntT], (fun h => ?_), fun h => ?_⟩, (fun t' h => by cases h), (fun t' h => by cases h), fun _ => he'⟩ rfl rfl
      all_goals
        have h : c.hs.ps.err = false := h
        rw [he'] at h; cases h
    · rw [if_neg he', if_neg he']
      have he'' : c.hs.ps.err = false := by simpa using he'
      by_cases h2 : (decide (c.hs.ps.toks = []) && decide (lvl ≠ 0)) = true
      · rw [if_pos h2, if_pos h2]
        refine .of ⟨hi.suf, ⟨lk, hfree.cast fun x => by simp [cntT], (fun h => ?_), fun h => ?_⟩, (fun t' h => by cases h), (fun t' h => by cases h), fun _ => rfl⟩ rfl rfl
        all_goals cases h
      · rw [if_neg h2, if_neg h2]
        obtain ⟨ho, hw⟩ := close_ok hi
        refine .of ⟨?_, ⟨lk, ho, ?_, ?_⟩, ?_, ?_, fun h => by cases h⟩ ?_ (close_ps c)
        · rw [close_ps]; exact hi.suf
        · rw [close_ps]; exact hi.lost
        · rw [close_ps]
          intro h1 h2 h3
          rcases hfd h1 h2 h3 with h | ⟨st, h, _⟩
          · exact Or.inl h
          · exact Or.inr ⟨st, h⟩
        · intro t' ht'; cases ht'; exact hw
        · intro t' _
          rw [close_ps]
          refine ⟨he'', fun hl => ?_⟩
          cases d with
          | true => exact hcl rfl he''
          | false =>
            have := hend rfl he''
            simp [this, hl] at h2
        · show some c.close.1.plain = _
          rw [close_plain, hsame.all (by rw [← hsame.ps]; exact he'')]

theorem spec_nodes {f : Nat} (ih : TSpec all f) (F : Count) (lvl : Nat) (lk : Count) (start : List Token) (c : HCtx) (ht : Toks all.length F)
    (he : c.hs.ps.err = false) (hi : Inv all F lk c) (hf : Found all start lk c) : BothN (Ends all F start) (parseNodesH (f + 1) lvl c) (parseNodes (f + 1) lvl c.plain) := by
  unfold parseNodesH parseNodes
  rw [show c.plain.ps = c.hs.ps from rfl]
  cases htk : c.hs.ps.toks with
  | nil => exact .ok ⟨went_false hi hf, fun _ _ => htk⟩ (same_plain c)
  | cons t rest =>
    dsimp only
    have h1 := ih.node F lvl lk start c ht he hi hf
    generalize parseNodeH f lvl c = r at h1 ⊢
    generalize parseNode f lvl c.plain = p at h1 ⊢
    cases h1 with
    | ub => exact .ub
    | fuel => exact .fuel
    | @ok d c1 c1' hr hsame =>
      dsimp only
      rw [← hsame.ps]
      by_cases hd : (d || c1.hs.ps.err) = true
      · rw [if_pos hd, if_pos hd]
        refine .ok ⟨hr, fun hdf hef => ?_⟩ hsame
        rw [hdf, hef] at hd
        cases hd
      · rw [if_neg hd, if_neg hd]
        have he1 : c1.hs.ps.err = false := by
          cases hx : c1.hs.ps.err with
          | false => rfl
          | true => rw [hx, Bool.or_true] at hd; exact absurd rfl hd
        obtain ⟨lk1, hi1, hf1⟩ := hr.1
        have := ih.nodes F lvl lk1 start c1 ht he1 hi1 hf1
        rw [hsame.all (by rw [← hsame.ps]; exact he1)] at this
        exact this

theorem spec_sub {f : Nat} (ih : TSpec all f) (F : Count) (lvl : Nat) (lk : Count) (start : List Token) (c : HCtx) (ht : Toks all.length F)
    (he : c.hs.ps.err = false) (hi : Inv all F lk c) (hf : Found all start lk c) (hopen : ∀ t ∈ c.hs.ps.toks.head?, t.ty = .bracketOpen) :
    BothN (Went all F start) (parseSubTreeH (f + 1) lvl c) (parseSubTree (f + 1) lvl c.plain) := by
  unfold parseSubTreeH parseSubTree
  rw [show c.plain.ps = c.hs.ps from rfl]
  cases htk : c.hs.ps.toks with
  | nil => exact .ub
  | cons t rest =>
    dsimp only
    have hlast : c.plain.lastHasChild = c.lastHasChild := by
      obtain ⟨hs, done, node, hc⟩ := c
      cases done with
      | nil => rfl
      | cons n ns =>
        obtain ⟨b, st, tok, te, ch⟩ := n
        cases ch <;> rfl
    rw [hlast]
    by_cases h1 : c.lastHasChild = true
    · rw [if_pos h1, if_pos h1]
      exact .ok (went_false (hi.fail _ _) (.err rfl)) (same_err rfl rfl)
    · rw [if_neg h1, if_neg h1]
      have hsr : rest <:+ all := by
        have := hi.suf
        rw [htk] at this
        exact (List.suffix_cons _ _).trans this
      have h2 := ih.tree (fun x => c.cnt x + (lk x + F x)) (lvl + 1) { c.hs with ps := { c.hs.ps with toks := rest, err := false } }
        (ht.mono fun x => by omega) rfl hsr hi.own
      dsimp only at h2
      generalize parseTreeH f (lvl + 1) { c.hs with ps := { c.hs.ps with toks := rest, err := false } } = r at h2 ⊢
      generalize parseTree f (lvl + 1) { c.hs.ps with toks := rest, err := false } = p at h2 ⊢
      cases h2 with
      | ub => exact .ub
      | fuel => exact .fuel
      | @ok tr h' hr =>
        obtain ⟨lk2, ho, hk, hfd⟩ := hr.own
        cases tr with
        | none =>
          refine .ok (went_false (hi.setErr (lk' := fun x => lk2 x + lk x) rfl hr.suf ?_) (.err rfl)) (same_err rfl rfl)
          exact ho.cast fun x => by simp only [cntT]; omega
        | some ch =>
          obtain ⟨hne, hcl⟩ := hr.close ch rfl
          obtain ⟨a, rest', hat, hac⟩ := hcl (by simp)
          have hw := hr.fit ch rfl
          dsimp only [Option.map]
          have hne' : ¬ h'.ps.err = true := by rw [hne]; simp
          rw [if_neg hne', if_neg hne']
          have htok : ch.plain.hasToken = ch.hasToken := by cases ch <;> rfl
          rw [htok, hat]
          have hsr' : rest' <:+ all := by
            have := hr.suf
            rw [hat] at this
            exact (List.suffix_cons _ _).trans this
          by_cases h3 : (!ch.hasToken) = true
          · rw [if_pos h3, if_pos h3]
            refine .ok (went_false (hi.setErr (lk' := fun x => lk2 x + lk x) rfl (by have := hr.suf; rw [hat] at this; exact this) ?_) (.err rfl)) (same_err rfl rfl)
            have := (holds_fail ho .errEmptyBlock (some a)).log (ch.runs_free (n := all.length) (fun x => lk2 x + (c.cnt x + (lk x + F x))) hw (ht.mono fun x => by omega))
            exact this.cast fun x => by omega
          · rw [if_neg h3, if_neg h3]
            have haft : AfterBlock all rest' := by
              obtain ⟨pre, hpre⟩ := hr.suf
              exact ⟨pre, a, [], by rw [List.nil_append, ← hat]; exact hpre.symm, hac, fun t h => by cases h⟩
            have hlk2 : Tidy all → ∀ x, lk2 x = 0 := hk hne
            have hlk : Tidy all → ∀ x, lk x = 0 := hi.lost he
            -- the block that hung on the head before
            have hold : Tidy all → c.headChild = .nil := by
              intro hT
              cases hc : c.headChild with
              | nil => rfl
              | node =>
                have := hi.after he (by rw [hc]; simp)
                exact absurd (hopen t (by rw [htk]; rfl)) (hT.blocks _ this t (by rw [htk]; rfl))
            have hInv : Inv all F (fun x => lk2 x + lk x + (match c.done with | [] => c.headChild.cnt x | n :: _ => n.child.cnt x))
                (({ c with hs := { h' with ps := { h'.ps with toks := rest', err := c.hs.ps.err } } } : HCtx).setChild ch) := by
              obtain ⟨hs, done, node, hc⟩ := c
              cases done with
              | nil =>
                refine ⟨hsr', ?_, hi.nodes, hw, Or.inl rfl, fun _ hT x => ?_, fun _ _ => haft⟩
                · have : Holds h' (fun x => one (.mem node) x + (ch.cnt x + (lk2 x + lk x + hc.cnt x + F x))) :=
                    ho.cast fun x => by simp only [cntT, HCtx.cnt, nodesCnt]; omega
                  refine (this.use (b := .mem node) (by simp only [one_self]; omega)).cast fun x => ?_
                  simp only [HCtx.cnt, HCtx.setChild, nodesCnt]
                  omega
                · have := hold hT
                  dsimp only at this
                  subst this
                  simp [hlk2 hT x, hlk hT x, HTree.cnt]
              | cons n ns =>
                have hn : hc = .nil := by
                  rcases hi.shape with h | h
                  · cases h
                  · exact h
                subst hn
                have hnc : n.child = .nil := by
                  cases hx : n.child with
                  | nil => rfl
                  | node b st tok te ch nx =>
                    exfalso
                    apply h1
                    obtain ⟨nb, nst, ntok, nte, nch⟩ := n
                    dsimp only at hx
                    subst hx
                    rfl
                refine ⟨hsr', ?_, ?_, trivial, Or.inr rfl, fun _ hT x => ?_, fun _ hn => absurd rfl hn⟩
                · have : Holds h' (fun x => one (.mem n.b) x + (ch.cnt x + (n.stmt.cnt x + nodesCnt ns x + one (.mem node) x + (lk2 x + lk x + n.child.cnt x + F x)))) :=
                    ho.cast fun x => by simp only [cntT, HCtx.cnt, nodesCnt, HNode.cnt, HTree.cnt]; omega
                  refine (this.use (b := .mem n.b) (by simp only [one_self]; omega)).cast fun x => ?_
                  simp only [HCtx.cnt, HCtx.setChild, nodesCnt, HNode.cnt, HTree.cnt]
                  omega
                · intro m hm
                  rcases List.mem_cons.1 hm with rfl | hm
                  · exact ⟨(hi.nodes n List.mem_cons_self).1, hw⟩
                  · exact hi.nodes m (List.mem_cons_of_mem _ hm)
                · show lk2 x + lk x + n.child.cnt x = 0
                  rw [hnc]
                  simp [hlk2 hT x, hlk hT x, HTree.cnt]
            have hFound : Found all start (fun x => lk2 x + lk x + (match c.done with | [] => c.headChild.cnt x | n :: _ => n.child.cnt x))
                (({ c with hs := { h' with ps := { h'.ps with toks := rest', err := c.hs.ps.err } } } : HCtx).setChild ch) := by
              intro _ hn hb
              rcases hf he hn hb with ⟨x, hx⟩ | ⟨st, hst, hung⟩
              · exact Or.inl ⟨x, by dsimp only; omega⟩
              · rw [htk, blockAfterBlock, if_pos (hopen t (by rw [htk]; rfl))] at hst
                cases st with
                | true =>
                  refine Or.inl ?_
                  have hung := hung rfl
                  obtain ⟨hs, done, node, hc⟩ := c
                  cases done with
                  | nil =>
                    have hung : hc ≠ .nil := hung
                    cases hc with
                    | nil => exact absurd rfl hung
                    | node b _ _ _ _ _ => exact ⟨.mem b, by simp only [HTree.cnt, one_self]; omega⟩
                  | cons n ns =>
                    exfalso
                    apply h1
                    obtain ⟨nb, nst, ntok, nte, nch⟩ := n
                    have hung : nch ≠ .nil := hung
                    cases nch with
                    | nil => exact absurd rfl hung
                    | node => rfl
                | false =>
                  rcases hfd hne hn hst with ⟨x, hx⟩ | ⟨st', hst'⟩
                  · exact Or.inl ⟨x, by dsimp only; omega⟩
                  · refine Or.inr ⟨true, ?_, fun _ => ?_⟩
                    · rw [hat, blockAfterBlock, if_neg (by rw [hac]; simp), if_pos hac] at hst'
                      obtain ⟨hs, done, node, hc⟩ := c
                      cases done <;> exact hst'
                    · have hcn : ch ≠ .nil := by
                        intro h
                        rw [h] at h3
                        exact h3 rfl
                      obtain ⟨hs, done, node, hc⟩ := c
                      cases done <;> exact hcn
            refine .ok (went_false hInv hFound) ?_
            have hpl : (({ c with hs := { h' with ps := { h'.ps with toks := rest', err := c.hs.ps.err } } } : HCtx).setChild ch).plain =
                { c.plain.setChild ch.plain with ps := { h'.ps with toks := rest', err := c.hs.ps.err } } := by
              obtain ⟨hs, done, node, hc⟩ := c
              cases done <;> rfl
            have hps : (({ c with hs := { h' with ps := { h'.ps with toks := rest', err := c.hs.ps.err } } } : HCtx).setChild ch).hs.ps =
                { h'.ps with toks := rest', err := c.hs.ps.err } := by
              obtain ⟨hs, done, node, hc⟩ := c
              cases done <;> rfl
            exact ⟨hps, fun _ => hpl⟩

theorem spec_node {f : Nat} (ih : TSpec all f) (F : Count) (lvl : Nat) (lk : Count) (start : List Token) (c : HCtx) (ht : Toks all.length F)
    (he : c.hs.ps.err = false) (hi : Inv all F lk c) (hf : Found all start lk c) :
    BothN (Went all F start) (parseNodeH (f + 1) lvl c) (parseNode (f + 1) lvl c.plain) := by
  cases htk : c.hs.ps.toks with
  | nil =>
    unfold parseNodeH parseNode
    rw [show c.plain.ps = c.hs.ps from rfl, htk]
    exact .ub
  | cons t rest =>
    rcases node_cases (f := f) (lvl := lvl) (c := c.plain) (t := t) (rest := rest) htk with ⟨hty, hp⟩ | ⟨hty, hp⟩ | ⟨hty, hp⟩ | ⟨h1, h2, h3, h4⟩
    · rw [hp]
      unfold parseNodeH
      rw [htk]
      dsimp only
      rw [hty]
      dsimp only
      by_cases h0 : lvl = 0
      · rw [if_pos h0, if_pos h0]
        exact .ok ⟨⟨lk, hi.fail _ _, .err rfl⟩, fun _ h => by cases h⟩ (same_err rfl rfl)
      · rw [if_neg h0, if_neg h0]
        exact .ok ⟨⟨lk, hi, hf⟩, fun _ _ => ⟨t, rest, htk, hty⟩⟩ (same_plain c)
    · rw [hp]
      unfold parseNodeH
      rw [htk]
      dsimp only
      rw [hty]
      exact ih.sub F lvl lk start c ht he hi hf (by rw [htk]; intro s hs; cases hs; exact hty)
    · have hH : parseNodeH (f + 1) lvl c = .ok false { c with hs := c.hs.setToks rest } := by
        unfold parseNodeH
        rw [htk]
        dsimp only
        rcases hty with hty | hty <;> rw [hty]
      rw [hp, hH]
      have hsr : rest <:+ all := by
        have := hi.suf
        rw [htk] at this
        exact (List.suffix_cons _ _).trans this
      refine .ok (went_false (lk := lk) ⟨hsr, hi.own, hi.nodes, hi.head, hi.shape, hi.lost, fun he hn => ?_⟩ ?_) ⟨rfl, fun _ => rfl⟩
      · obtain ⟨pre, cl, sep, h1, h2, h3⟩ := hi.after he hn
        refine ⟨pre, cl, sep ++ [t], ?_, h2, ?_⟩
        · rw [htk] at h1
          rw [h1]
          simp [HS.setToks]
        · intro s hs
          rcases List.mem_append.1 hs with hs | hs
          · exact h3 s hs
          · rw [List.mem_singleton.1 hs]; exact hty
      · intro _ hn hb
        rcases hf he hn hb with h | ⟨st, hst, hung⟩
        · exact Or.inl h
        · refine Or.inr ⟨st, ?_, hung⟩
          rw [htk, blockAfterBlock, if_neg (by rcases hty with h | h <;> rw [h] <;> simp), if_neg (by rcases hty with h | h <;> rw [h] <;> simp),
            if_pos hty] at hst
          exact hst
    · refine stmt_went hi hf he (fun h0 => ?_) (node_stmt he htk h1 h2 h3 h4)
      have ht0 : Toks all.length (fun x => lk x + F x) := ht.mono fun x => by omega
      unfold parseNodeH parseNode
      rw [show c.plain.ps = c.hs.ps from rfl, htk]
      dsimp only
      cases hty : t.ty with
      | bracketClose => exact absurd hty h1
      | bracketOpen => exact absurd hty h2
      | newline => exact absurd hty h3
      | comma => exact absurd hty h4
      | kwReturn => exact return_ok ht0 h0 he
      | kwIf => exact condition_ok ht0 h0 he .ifs .ifs (fun _ => rfl) (fun _ => rfl) (fun _ => Iff.rfl)
      | kwElif => exact condition_ok ht0 h0 he .elifs .elifs (fun _ => rfl) (fun _ => rfl) (fun _ => Iff.rfl)
      | kwElse => exact pushToken_ok ht0 h0 _
      | kwWhile => exact condition_ok ht0 h0 he .whiles .whiles (fun _ => rfl) (fun _ => rfl) (fun _ => Iff.rfl)
      | kwNamespace => exact namespace_ok ht0 h0
      | kwUnreachable => exact pushToken_ok ht0 h0 _
      | comment => exact pushToken_ok ht0 h0 _
      | kwNoop => exact pushToken_ok ht0 h0 _
      | kwBreak => exact pushToken_ok ht0 h0 _
      | kwContinue => exact pushToken_ok ht0 h0 _
      | kwImport => exact import_ok ht0 h0
      | _ => exact default_ok ht0 h0 he

theorem tspec (all : List Token) : ∀ f, TSpec all f
  | 0 =>
    { tree := fun _ _ _ _ _ _ _ => by unfold parseTreeH parseTree; exact .fuel
      nodes := fun _ _ _ _ _ _ _ _ _ => by unfold parseNodesH parseNodes; exact .fuel
      node := fun _ _ _ _ _ _ _ _ _ => by unfold parseNodeH parseNode; exact .fuel
      sub := fun _ _ _ _ _ _ _ _ _ _ => by unfold parseSubTreeH parseSubTree; exact .fuel }
  | f + 1 => ⟨spec_tree (tspec all f), spec_nodes (tspec all f), spec_node (tspec all f), spec_sub (tspec all f)⟩

/-! The tokens. -/

def tokCnt : Nat → Count
  | 0 => fun _ => 0
  | n + 1 => fun x => one (.tok (n + 1)) x + tokCnt n x

theorem toks_tokCnt : ∀ n, Toks n (tokCnt n)
  | 0 => fun p h1 h2 => by omega
  | n + 1 => fun p h1 h2 => by
    by_cases h : p = n + 1
    · subst h
      simp only [tokCnt, one_self]; omega
    · have := toks_tokCnt n p h1 (by omega)
      simp only [tokCnt]; omega

theorem runs_freeTokens (c : Count) : ∀ n, Runs (freeTokens n) (fun x => tokCnt n x + c x) c
  | 0 => (Runs.nil c).cast (fun x => by simp [tokCnt]) fun _ => rfl
  | n + 1 => by
    show Runs (.use (.tok (n + 1)) :: .free (.tok (n + 1)) :: freeTokens n) _ _
    refine Runs.use ?_ ((Runs.free (runs_freeTokens c n)).cast (fun x => ?_) fun _ => rfl)
    · simp only [tokCnt, one_self]; omega
    · simp only [tokCnt]; omega

theorem alloc_tokens : ∀ (n : Nat) (m : Block → Life) (c : Count), Lives m c → (∀ p, p ≤ n → m (.tok p) = .fresh) →
    ∃ m', memRun m ((tokBlocks n).map .alloc) = some m' ∧ Lives m' (fun x => tokCnt n x + c x) ∧ ∀ i, m' (.mem i) = m (.mem i)
  | 0, m, c, hm, _ => ⟨m, rfl, hm.cast fun x => by simp [tokCnt], fun _ => rfl⟩
  | n + 1, m, c, hm, hf => by
    have hfr := hf (n + 1) (Nat.le_refl _)
    have hm' : Lives (setLife m (.tok (n + 1)) .live) (fun x => one (.tok (n + 1)) x + c x) := by
      intro x
      have hx := hm x
      by_cases e : x = .tok (n + 1)
      · subst e
        rw [hfr] at hx
        rw [setLife_self]
        simp at hx
        simp [hx]
      · rw [setLife_ne e]
        simp only [one, if_neg e, Nat.zero_add]; exact hx
    obtain ⟨m', h1, h2, h3⟩ := alloc_tokens n _ _ hm' (fun p hp => by rw [setLife_ne (by simp; omega)]; exact hf p (by omega))
    refine ⟨m', ?_, h2.cast fun x => by simp only [tokCnt]; omega, fun i => ?_⟩
    · show memRun m (.alloc (.tok (n + 1)) :: (tokBlocks n).map .alloc) = _
      rw [memRun_cons]
      simp only [memStep, if_pos hfr]
      exact h1
    · rw [h3 i, setLife_ne (by simp)]

/-- The whole parser. -/
theorem parseAstTreeH_ok (toks : List Token) : BothT (TreeR toks (tokCnt toks.length) toks 0) (parseAstTreeH toks) (parseAstTree toks) := by
  unfold parseAstTreeH parseAstTree
  have hh : Holds { ps := { toks := toks }, evs := (tokBlocks toks.length).map .alloc } (tokCnt toks.length) := by
    obtain ⟨m', h1, h2, h3⟩ := alloc_tokens toks.length (fun _ => .fresh) (fun _ => 0) (fun b => by simp) (fun _ _ => rfl)
    exact ⟨m', h1, h2.cast fun x => by simp, fun i _ => h3 i⟩
  have h1 := (tspec toks (treeFuel toks)).tree (tokCnt toks.length) 0 _ (toks_tokCnt _) rfl (List.suffix_refl _) hh
  dsimp only at h1
  generalize parseTreeH (treeFuel toks) 0 { ps := { toks := toks }, evs := (tokBlocks toks.length).map .alloc } = r at h1 ⊢
  generalize parseTree (treeFuel toks) 0 { toks := toks } = p at h1 ⊢
  cases h1 with
  | ub => exact .ub
  | fuel => exact .fuel
  | @ok t h hr =>
    cases t with
    | none => exact .ok hr
    | some t =>
      have he := (hr.close t rfl).1
      show BothT _ (if _ then _ else _) (if _ then _ else _)
      rw [if_neg (by rw [he]; simp), if_neg (by rw [he]; simp)]
      have hp : (t.setHead toks).plain = t.plain.setHead toks := by
        cases t with
        | nil => rfl
        | node b st tok te ch nx =>
          simp only [HTree.setHead, HTree.plain, Tree.setHead]
          split <;> rfl
      have hc : (t.setHead toks).cnt = t.cnt := by
        cases t with
        | nil => rfl
        | node b st tok te ch nx => simp only [HTree.setHead]; split <;> rfl
      have hw : (t.setHead toks).Within toks.length ↔ t.Within toks.length := by
        cases t with
        | nil => exact Iff.rfl
        | node b st tok te ch nx => simp only [HTree.setHead]; split <;> exact Iff.rfl
      refine .of ⟨hr.suf, ?_, fun t' h => ?_, fun t' _ => hr.close t rfl, fun h => by cases h⟩ (by rw [Option.map_some, hp]) rfl
      · obtain ⟨lk, h1, h2⟩ := hr.own
        exact ⟨lk, h1.cast fun x => by show t.cnt x + _ = (t.setHead toks).cnt x + _; rw [hc], h2⟩
      · cases h; exact hw.2 (hr.fit t rfl)

/-- Where the pipeline frees the tokens first, the tree does not look at any. -/
theorem empty_free {toks : List Token} {t : HTree} {s : PS} (h : parseAstTree toks = .ok (some t.plain) s) (he : t.isEmpty = true) (c : Count) :
    Runs t.free (fun x => t.cnt x + c x) c := by
  have hn := parsed_named h
  cases t with
  | nil => cases he
  | node b st tok te ch nx =>
    have hst : st.plain = .unknown ∧ ch = .nil := by
      revert he
      cases st <;> try (intro he; cases he; done)
      rename_i st
      cases ch <;> cases st <;> first | (intro he; cases he; done) | (intro _; exact ⟨rfl, rfl⟩)
    have hnx : nx = .nil := by
      rcases hn with ⟨tok', child, hn, _⟩ | hn
      · have hn' : Tree.node st.plain tok te ch.plain nx.plain = .node .unknown tok' [] child .nil := hn
        simp only [Tree.node.injEq] at hn'
        cases nx with
        | nil => rfl
        | node => exact absurd hn'.2.2.2.2 (by simp [HTree.plain])
      · have hn' : AllStmts Named (.node st.plain tok te ch.plain nx.plain) := hn
        exact absurd hst.1 hn'.1
    have hbare : st.Within 0 := by
      cases st with
      | bare => trivial
      | _ => exact absurd hst.1 (by simp [HStmt.plain])
    obtain ⟨_, rfl⟩ := hst
    subst hnx
    exact HTree.runs_free (n := 0) _ _ ⟨hbare, trivial, trivial⟩ (fun p h1 h2 => by omega)

theorem parsed_all {toks : List Token} {T : Tree} {s : PS} (h : parseAstTree toks = .ok (some T) s) : s.toks = [] := by
  unfold parseAstTree at h
  cases hp : parseTree (treeFuel toks) 0 { toks := toks } with
  | ub => rw [hp] at h; cases h
  | fuel => rw [hp] at h; cases h
  | ok r s' =>
    rw [hp] at h
    cases r with
    | none => cases h
    | some t =>
      have h1 := ((treeAt (treeFuel toks)).tree 0 _ _ _ rfl hp).2.2 (by simp)
      have h2 := h1.2.2
      rw [if_pos rfl] at h2
      have h : (if s'.err then TRes.ok none s' else .ok (some (t.setHead toks)) s') = .ok (some T) s := h
      rw [if_neg (by rw [h1.1]; simp)] at h
      cases h
      exact h2

/-- After all is freed only what was lost is there. -/
theorem memoryLog_ok (toks : List Token) :
    match memoryLog toks, parseAstTree toks with
    | some es, .ok t s => ∃ n lk, HoldsAt es n lk ∧ (t.isSome → Tidy toks → ∀ x, lk x = 0) ∧
        (t.isSome → NamespacesNamed toks → blockAfterBlock false toks = true → ∃ x, lk x ≠ 0)
    | none, .ub => True
    | none, .fuel => True
    | _, _ => False := by
  unfold memoryLog
  have h1 := parseAstTreeH_ok toks
  generalize hp : parseAstTree toks = p at h1 ⊢
  generalize parseAstTreeH toks = r at h1 ⊢
  cases h1 with
  | ub => trivial
  | fuel => trivial
  | @ok t h hr =>
    obtain ⟨lk, ho, hk, hfd⟩ := hr.own
    cases t with
    | none =>
      refine ⟨h.next, lk, ?_, (fun h => by cases h), (fun h => by cases h)⟩
      exact (ho.cast (c' := fun x => tokCnt toks.length x + lk x) fun x => by simp only [cntT]; omega).log (runs_freeTokens lk _)
    | some t =>
      dsimp only [Option.map]
      have he := (hr.close t rfl).1
      have hlost : NamespacesNamed toks → blockAfterBlock false toks = true → ∃ x, lk x ≠ 0 := by
        intro h1 h2
        rcases hfd he h1 h2 with h | ⟨st, h⟩
        · exact h
        · rw [parsed_all hp] at h
          cases h
      by_cases hemp : t.isEmpty = true
      · rw [if_pos hemp]
        refine ⟨h.next, lk, ?_, fun _ => hk he, fun _ => hlost⟩
        have hr1 := runs_freeTokens (fun x => t.cnt x + lk x) toks.length
        have hr2 := empty_free hp hemp lk
        exact (ho.cast (c' := fun x => tokCnt toks.length x + (t.cnt x + lk x)) fun x => by simp only [cntT]; omega).log (hr1.append hr2)
      · rw [if_neg hemp]
        refine ⟨h.next, lk, ?_, fun _ => hk he, fun _ => hlost⟩
        have hr1 := t.runs_free (n := toks.length) (fun x => tokCnt toks.length x + lk x) (hr.fit t rfl) ((toks_tokCnt _).mono fun x => by omega)
        have hr2 := runs_freeTokens lk toks.length
        exact (ho.cast (c' := fun x => t.cnt x + (tokCnt toks.length x + lk x)) fun x => by simp only [cntT]; omega).log (hr1.append hr2)

end Skull.PHeap
