import Verif.Spec.MsgHeap
import Verif.Proofs.ContHeap
import Verif.Proofs.Errors
/-
What messages own (C93).
-/
namespace Skull.MsgHeap
open Skull Skull.Spec Skull.ContHeap

def reals : List MsgH → List Nat
  | [] => []
  | x :: xs => x.real.toList ++ reals xs

theorem useOpt_d {o : Option Nat} {pre : List Nat} (h : ∀ b, o = some b → b ∈ pre) : Does (useOpt o) (fun _ => True) pre (fun _ => pre) := by
  cases o with
  | none => exact .pure trivial (Same.rfl' _)
  | some b => exact use_d (h b rfl)

theorem freeOpt_d (o : Option Nat) (F : List Nat) : Does (freeOpt o) (fun _ => True) (o.toList ++ F) (fun _ => F) := by
  cases o with
  | none => exact .pure trivial (Same.rfl' _)
  | some b => exact free_d (Same.rfl' _)

theorem useReals_d : ∀ (xs : List MsgH) {pre : List Nat}, (∀ b ∈ reals xs, b ∈ pre) → Does (useReals xs) (fun _ => True) pre (fun _ => pre)
  | [], _, _ => .pure trivial (Same.rfl' _)
  | x :: xs, _, h => .bind (useOpt_d fun b hb => h b (by simp [reals, hb])) fun _ _ =>
      useReals_d xs fun b hb => h b (by simp [reals, hb])

theorem freeReals_d : ∀ (xs : List MsgH) (F : List Nat), Does (freeReals xs) (fun _ => True) (reals xs ++ F) (fun _ => F)
  | [], _ => .pure trivial (Same.rfl' _)
  | x :: xs, F => .bind ((freeOpt_d x.real (reals xs ++ F)).cast (by simp only [reals]; same) fun _ _ => Same.rfl' _) fun _ _ => freeReals_d xs F

/-- No text is lost when the message gets one. -/
def Ready (x : MsgH) : Prop := setsReal x.m = true → x.real = none

theorem stringify_d {x : MsgH} (h : Ready x) (F : List Nat) :
    Does (stringifyH x) (fun _ => True) (x.real.toList ++ F) (fun y => y.real.toList ++ F) := by
  unfold stringifyH
  split
  · rename_i hs
    rw [h hs]
    exact .bind (alloc_d _) fun b _ => .bind (use_d (by simp)) fun _ _ => .pure trivial (Same.rfl' _)
  · exact .pure trivial (Same.rfl' _)

theorem last_d (F : List Nat) : Does (stringifyAllH [⟨{}, none⟩]) (fun ys => ys = []) F (fun _ => F) := by
  unfold stringifyAllH
  exact .bind (Q := fun _ => True) (mid := fun _ => F) (.pure trivial (Same.rfl' _)) fun _ _ => .pure rfl (Same.rfl' _)

theorem texts_d : ∀ (xs : List MsgH), (∀ x ∈ xs, Ready x ∧ hasText x.m = true) → ∀ F,
    Does (stringifyAllH (xs ++ [⟨{}, none⟩])) (fun _ => True) (reals xs ++ F) (fun ys => reals ys ++ F)
  | [], _, F => ((last_d F).cast (post' := fun ys => reals ys ++ F) (Same.rfl' _) fun ys h => by subst h; exact Same.rfl' _).mono fun _ _ => trivial
  | x :: xs, h, F => by
    rw [List.cons_append, stringifyAllH]
    refine .bind ((stringify_d (h x (by simp)).1 (reals xs ++ F)).cast (by simp only [reals]; same) fun _ _ => Same.rfl' _) fun y _ => ?_
    rw [if_pos (h x (by simp)).2]
    refine .bind ((texts_d xs (fun x hx => h x (by simp [hx])) (y.real.toList ++ F)).cast (by same) fun _ _ => Same.rfl' _) fun ys _ =>
      .pure trivial ?_
    simp only [reals]
    same

/-- All messages have a text, or there is one without. -/
def Shape (xs : List MsgH) : Prop :=
  (∀ x ∈ xs, Ready x ∧ hasText x.m = true) ∨ ∃ x, xs = [x] ∧ x.real = none ∧ setsReal x.m = false ∧ hasText x.m = false

theorem all_d {xs : List MsgH} (h : Shape xs) (F : List Nat) :
    Does (stringifyAllH (xs ++ [⟨{}, none⟩])) (fun _ => True) (reals xs ++ F) (fun ys => reals ys ++ F) := by
  rcases h with h | ⟨x, rfl, h1, h2, h3⟩
  · exact texts_d xs h F
  · simp only [List.cons_append, List.nil_append, reals, h1]
    rw [stringifyAllH]
    unfold stringifyH
    rw [h2]
    simp only [Bool.false_eq_true, if_false, h3]
    exact .bind (Q := fun _ => True) (mid := fun _ => F) (.pure trivial (Same.rfl' _)) fun _ _ => .pure trivial (Same.rfl' _)

theorem location_d (m : Message) (F : List Nat) : Does (locationH m) (fun _ => True) F (fun o => o.toList ++ F) := by
  unfold locationH
  split
  · exact .pure trivial (Same.rfl' _)
  · exact .bind (alloc_d _) fun b _ => .bind (use_d (by simp)) fun _ _ => .pure trivial (Same.rfl' _)

theorem fmt_d {color : Bool} {filename : List UInt8} {kind : DiagKind} {code : Code} {xs : List MsgH} (h : Shape xs) {text : List UInt8}
    (ht : fmtMessage color filename kind code (xs.map (·.m)) = some text) (F : List Nat) :
    Does (fmtInternalH color filename kind code xs) (fun r => r.1 = text) (reals xs ++ F) (fun r => r.2 :: F) := by
  unfold fmtInternalH
  refine .bind (all_d h F) fun ms _ => .bind (alloc_d _) fun pre _ => .bind (use_d (by simp)) fun _ _ => .bind (location_d _ _) fun loc _ =>
    .bind (useReals_d ms fun b hb => by simp [hb]) fun _ _ => .bind (alloc_d _) fun err _ => .bind (use_d (by simp)) fun _ _ =>
    .bind (option_d ht _) fun t ht => .bind (use_d (by simp)) fun _ _ => .bind (useOpt_d fun b hb => by simp [hb]) fun _ _ =>
    .bind (use_d (by simp)) fun _ _ => .bind (alloc_d _) fun out _ => .bind (use_d (by simp)) fun _ _ =>
    .bind (free_d (post := loc.toList ++ (err :: (reals ms ++ (out :: F)))) (by same)) fun _ _ =>
    .bind (freeOpt_d loc _) fun _ _ => .bind (free_d (Same.rfl' _)) fun _ _ => .bind (freeReals_d ms _) fun _ _ => .pure ht (Same.rfl' _)

/- ### Reporting -/

/-- The messages are those of the arguments, with the texts that these come with. -/
def Given (args : List Arg) (xs : List MsgH) : Prop :=
  xs.map (·.m) = args.map msgOf ∧ ∀ x ∈ xs, ∃ a ∈ args, x.m = msgOf a ∧ (x.real.isSome = true → a.kind = .real ∨ a.kind = .locReal)

theorem give_d (a : Arg) (F : List Nat) :
    Does (giveH a) (fun x => x.m = msgOf a ∧ (x.real.isSome = true → a.kind = .real ∨ a.kind = .locReal)) F (fun x => x.real.toList ++ F) := by
  unfold giveH
  split
  · rename_i hk
    exact .bind (alloc_d _) fun b _ => .bind (use_d (by simp)) fun _ _ => .pure ⟨rfl, fun _ => .inl hk⟩ (Same.rfl' _)
  · rename_i hk
    exact .bind (alloc_d _) fun b _ => .bind (use_d (by simp)) fun _ _ => .pure ⟨rfl, fun _ => .inr hk⟩ (Same.rfl' _)
  · exact .pure ⟨rfl, fun h => by cases h⟩ (Same.rfl' _)

theorem giveAll_d : ∀ (args : List Arg) (F : List Nat), Does (giveAllH args) (Given args) F (fun xs => reals xs ++ F)
  | [], _ => .pure ⟨rfl, by simp⟩ (Same.rfl' _)
  | a :: args, F => by
    refine .bind (give_d a F) fun x hx => .bind (giveAll_d args _) fun xs hxs => .pure ⟨by simp [hx.1, hxs.1], ?_⟩ (by simp only [reals]; same)
    intro y hy
    rcases List.mem_cons.1 hy with rfl | hy
    · exact ⟨a, by simp, hx⟩
    · obtain ⟨b, h1, h2⟩ := hxs.2 y hy
      exact ⟨b, by simp [h1], h2⟩

theorem ready_of {a : Arg} {x : MsgH} (h1 : x.m = msgOf a) (h2 : x.real.isSome = true → a.kind = .real ∨ a.kind = .locReal) : Ready x := by
  intro hs
  cases hr : x.real with
  | none => rfl
  | some b =>
    rw [h1] at hs
    rcases h2 (by rw [hr]; rfl) with h | h <;> (unfold msgOf at hs; rw [h] at hs; cases hs)

theorem hasText_eq (a : Arg) : hasText (msgOf a) = texty a.kind := by
  cases h : texty a.kind with
  | true => exact (stringify_text a h).1
  | false => exact (stringify_none a h).1

theorem shape_of {code : Code} {args : List Arg} {xs : List MsgH} (hs : siteOk (code, args.map Arg.kind) = true) (hg : Given args xs) : Shape xs := by
  unfold siteOk at hs
  simp only [Bool.or_eq_true, Bool.and_eq_true, beq_iff_eq, List.all_eq_true, decide_eq_true_eq] at hs
  rcases hs with ⟨h1, h2⟩ | ⟨⟨⟨h1, h0⟩, h3⟩, h4⟩
  · right
    have hl : args.length = 1 := by
      rcases h1 with h | h <;> (have := congrArg List.length h; simpa using this)
    have hx : xs.length = 1 := by
      have := congrArg List.length hg.1
      simpa [hl] using this
    match xs, hx, args, hl with
    | [x], _, [a], _ =>
      obtain ⟨b, hb, e1, e2⟩ := hg.2 x (by simp)
      simp only [List.mem_singleton] at hb
      subst hb
      simp only [List.map_cons, List.map_nil, List.cons.injEq, and_true] at h1
      refine ⟨x, rfl, ?_, ?_, ?_⟩
      · cases hr : x.real with
        | none => rfl
        | some n =>
          rcases e2 (by rw [hr]; rfl) with h | h <;> rcases h1 with h' | h' <;> rw [h] at h' <;> cases h'
      · rw [e1]
        unfold msgOf
        rcases h1 with h | h <;> rw [h] <;> rfl
      · rw [e1, hasText_eq]
        rcases h1 with h | h <;> rw [h] <;> rfl
  · left
    intro x hx
    obtain ⟨a, ha, e1, e2⟩ := hg.2 x hx
    exact ⟨ready_of e1 e2, by rw [e1, hasText_eq]; exact h1 _ (List.mem_map_of_mem ha)⟩

/-- The blocks of the messages so far. -/
def eb : Errs → List Nat
  | none => []
  | some v => vb v ++ (items v).map (·.2)

/-- The messages so far have these texts. -/
def Stores (errs : Errs) (ts : List (List UInt8)) : Prop :=
  match errs with
  | none => ts = []
  | some v => ∃ l, VOk v l ∧ l.map (·.1) = ts

theorem fine_items {v : HVec (List UInt8 × Nat)} {l} (h : VOk v l) : items v = l := items_eq h.1

theorem push_errs {errs : Errs} {ts : List (List UInt8)} (h : Stores errs ts) (msg : List UInt8 × Nat) (F : List Nat) :
    Does (do
      let v ← errsH errs
      let v ← vectorPushH v msg
      pure (some v)) (fun e => Stores e (ts ++ [msg.1])) (msg.2 :: (eb errs ++ F)) (fun e => eb e ++ F) := by
  cases errs with
  | none =>
    refine .bind (make_d _ _) fun v hv => .bind (push_d hv msg _) fun v' hv' => .pure ⟨_, hv', ?_⟩ ?_
    · rw [show ts = [] from h]; rfl
    · simp only [eb, fine_items hv', List.nil_append, List.map_cons, List.map_nil]
      same
  | some v =>
    obtain ⟨l, hv, hl⟩ := h
    refine .bind (Q := (· = v)) (mid := fun _ => msg.2 :: (eb (some v) ++ F)) (.pure rfl (Same.rfl' _)) fun w hw => ?_
    subst hw
    refine .bind ((push_d hv msg (msg.2 :: ((items w).map (·.2) ++ F))).cast (by simp only [eb]; same) fun _ _ => Same.rfl' _) fun v' hv' =>
      .pure ⟨_, hv', by simp [hl]⟩ ?_
    simp only [eb, fine_items hv', fine_items hv, List.map_append, List.map_cons, List.map_nil]
    same

/-- The text of a diagnostic. -/
def textOf (color : Bool) (filename : List UInt8) (d : Diag) : List UInt8 := (fmtMessage color filename d.kind d.code (d.args.map msgOf)).getD []

theorem text_some' (color : Bool) (filename : List UInt8) {d : Diag} (h : d.Known) :
    fmtMessage color filename d.kind d.code (d.args.map msgOf) = some (textOf color filename d) := by
  obtain ⟨_, _, _, _, h⟩ := fmt_site color filename d.kind d.code d.args (sites_ok _ h)
  have h' : fmtMessage color filename d.kind d.code (d.args.map msgOf) = _ := h
  unfold textOf
  rw [h']
  rfl

theorem report_d (color : Bool) (filename : List UInt8) : ∀ (ds : List Diag), (∀ d ∈ ds, d.Known) → ∀ {errs : Errs} {ts : List (List UInt8)},
    Stores errs ts → Does (reportH color filename ds errs) (fun e => Stores e (ts ++ ds.map (textOf color filename))) (eb errs) eb
  | [], _, errs, ts, h => .pure (by simpa using h) (Same.rfl' _)
  | d :: ds, hd, errs, ts, h => by
    have hk := hd d (by simp)
    refine .bind (giveAll_d d.args _) fun xs hx => .bind (Q := fun e => Stores e (ts ++ [textOf color filename d])) (mid := eb) ?_ fun e he => ?_
    · have ht : fmtMessage color filename d.kind d.code (xs.map (·.m)) = some (textOf color filename d) := by rw [hx.1]; exact text_some' color filename hk
      refine .bind (fmt_d (shape_of (sites_ok _ hk) hx) ht _) fun msg hm => ?_
      rw [← hm]
      exact (push_errs h msg []).cast (by same) fun _ _ => by same
    · refine (report_d color filename ds (fun d h => hd d (by simp [h])) he).mono fun e he => ?_
      simpa using he

theorem write_d (quiet : Bool) {errs : Errs} {ts} (h : Stores errs ts) : Does (writeAndFreeH quiet errs) (fun _ => True) (eb errs) (fun _ => []) := by
  cases errs with
  | none => exact .pure trivial (Same.rfl' _)
  | some v =>
    obtain ⟨l, hv, _⟩ := h
    refine (freeVector_d (own := fun x => [x.2]) (fun x F => ?_) hv []).cast ?_ fun _ _ => Same.rfl' _
    · refine .bind (Q := fun _ => True) (mid := fun _ => [x.2] ++ F) ?_ fun _ _ => free_d (Same.rfl' _)
      unfold printH
      cases quiet
      · exact use_d (by simp)
      · exact .pure trivial (Same.rfl' _)
    · have : ∀ l : List (List UInt8 × Nat), owned (fun x => [x.2]) l = l.map (·.2) := by
        intro l
        induction l with
        | nil => rfl
        | cons x l ih => rw [owned, ih]; rfl
      simp only [eb, fine_items hv, this]
      same

theorem files_d (color quiet : Bool) : ∀ (fs : List (List UInt8 × List Diag)), (∀ f ∈ fs, ∀ d ∈ f.2, d.Known) →
    Does (filesH color quiet fs) (fun _ => True) [] (fun _ => [])
  | [], _ => .pure trivial (Same.rfl' _)
  | f :: fs, h => by
    refine .bind ((report_d color f.1 f.2 (h f (by simp)) (errs := none) (ts := []) rfl).cast (Same.rfl' _) fun _ _ => Same.rfl' _) fun e he =>
      .bind (write_d quiet he) fun _ _ => files_d color quiet fs fun f hf => h f (by simp [hf])

end Skull.MsgHeap
