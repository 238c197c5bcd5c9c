import Verif.Spec.Diag
import Verif.Proofs.Utf8
/-
Lemmas on the formatting of diagnostics.
-/
namespace Skull
open Spec

/-- The number of `%s` of a format that has no other conversion. -/
def holes : List Char → Option Nat
  | [] => some 0
  | '%' :: 's' :: f => (holes f).map (· + 1)
  | '%' :: _ => none
  | _ :: f => holes f

theorem printfS_fills (f : List Char) (args : List (List UInt8)) (n : Nat) (h : holes f = some n) (hn : n ≤ args.length) :
    ∃ out, printfS f args = some out ∧ Fills f (args.take n) out := by
  induction f using holes.induct generalizing args n with
  | case1 =>
    simp only [holes, Option.some.injEq] at h
    subst h
    exact ⟨[], by simp [printfS], by simpa using Fills.nil⟩
  | case2 f ih =>
    simp only [holes, Option.map_eq_some_iff] at h
    obtain ⟨m, hm, rfl⟩ := h
    cases args with
    | nil => simp at hn
    | cons a args =>
      obtain ⟨out, h1, h2⟩ := ih args m hm (by simpa using hn)
      exact ⟨a ++ out, by simp [printfS, h1], by simpa using Fills.arg h2⟩
  | case3 f hf =>
    exfalso
    revert h
    cases f with
    | nil => simp [holes]
    | cons c f =>
      by_cases hc : c = 's'
      · subst hc; exact (hf f rfl).elim
      · simp [holes, hc]
  | case4 c f h1 h2 ih =>
    have hc : c ≠ '%' := h2
    have hh : holes (c :: f) = holes f := by simp [holes, hc]
    rw [hh] at h
    obtain ⟨out, h3, h4⟩ := ih args n h hn
    refine ⟨UInt8.ofNat c.toNat :: out, ?_, Fills.lit hc h4⟩
    simp [printfS, hc, h3]

theorem ascii_fills (f : List Char) (h : holes f = some 0) : Fills f [] (f.map fun c => UInt8.ofNat c.toNat) := by
  induction f using holes.induct with
  | case1 => exact Fills.nil
  | case2 f ih => simp [holes] at h
  | case3 f hf =>
    exfalso
    revert h
    cases f with
    | nil => simp [holes]
    | cons c f =>
      by_cases hc : c = 's'
      · subst hc; exact (hf f rfl).elim
      · simp [holes, hc]
  | case4 c f h1 h2 ih =>
    have hc : c ≠ '%' := h2
    have hh : holes (c :: f) = holes f := by simp [holes, hc]
    rw [hh] at h
    exact Fills.lit hc (ih h)

/-- The message built from the contents. -/
def Spec.Arg.message (a : Arg) : Message := argMessage a.kind a.loc a.bytes a.chars a.num

/-- Kinds that stand for a text. -/
def texty : ArgKind → Bool
  | .zero | .loc => false
  | _ => true

theorem text_some (a : Arg) (h : texty a.kind = true) : ∃ t, a.text = some t := by
  unfold Arg.text
  cases hk : a.kind <;> simp [hk, texty] at h ⊢

theorem stringify_text (a : Arg) (h : texty a.kind = true) :
    ((messageStringify a.message).real.isSome || (messageStringify a.message).str.isSome) = true ∧
    some (messageStringify a.message).text = a.text := by
  unfold Arg.text Arg.message
  cases hk : a.kind <;>
    simp [hk, texty, argMessage, messageStringify, Message.text, c32stombs_eq, utf8, decimal, ascii] at h ⊢

theorem stringify_none (a : Arg) (h : texty a.kind = false) :
    ((messageStringify a.message).real.isSome || (messageStringify a.message).str.isSome) = false ∧ a.text = none := by
  unfold Arg.text Arg.message
  cases hk : a.kind <;>
    simp [hk, texty, argMessage, messageStringify] at h ⊢

theorem stringifyAll_texts (args : List Arg) (h : ∀ a ∈ args, texty a.kind = true) :
    ∃ ms, stringifyAll (args.map Arg.message ++ [({} : Message)]) = some ms ∧ ms.length = args.length ∧
      ms.map Message.text = args.filterMap Arg.text := by
  induction args with
  | nil => exact ⟨[], by simp [stringifyAll, messageStringify], rfl, rfl⟩
  | cons a args ih =>
    obtain ⟨ms, h1, h2, h3⟩ := ih (fun b hb => h b (List.mem_cons_of_mem _ hb))
    obtain ⟨t1, t2⟩ := stringify_text a (h a (List.mem_cons_self ..))
    refine ⟨messageStringify a.message :: ms, ?_, by simp [h2], ?_⟩
    · simp only [List.map_cons, List.cons_append, stringifyAll]
      rw [if_pos t1, h1]
      rfl
    · rw [List.filterMap_cons, ← t2]
      simp [h3]

/-- What is checked of every place that reports a diagnostic. -/
def siteOk (s : Code × List ArgKind) : Bool :=
  (s.2 == [.zero] || s.2 == [.loc]) && holes (template s.1).toList == some 0 ||
  s.2.all texty && decide (1 ≤ s.2.length) && decide (s.2.length ≤ 3) &&
    match holes (template s.1).toList with
    | some n => decide (n ≤ s.2.length)
    | none => false

theorem sites_ok : ∀ s ∈ diagSites, siteOk s = true := by decide +kernel

theorem locationStr_eq (a : Arg) (rest : List Arg) : locationStr a.message = place (a :: rest) := by
  obtain ⟨k, l, b, c, n⟩ := a
  unfold Arg.message place
  cases k <;> simp [argMessage, locationStr, Located, decimal] <;>
    by_cases h0 : l.line = 0 <;> simp [h0]

theorem prefix_eq (color : Bool) (filename : List UInt8) (kind : DiagKind) :
    prefixStr color filename kind = filename ++ heading color kind := by
  cases color <;> cases kind <;> simp [prefixStr, heading, ascii]

theorem fmt_site (color : Bool) (filename : List UInt8) (kind : DiagKind) (code : Code) (args : List Arg)
    (hs : siteOk (code, args.map Arg.kind) = true) :
    ∃ used body, used <+: args.filterMap Arg.text ∧ Fills (template code).toList used body ∧
      fmtMessage color filename kind code (args.map Arg.message) =
        some (filename ++ heading color kind ++ place args ++ body ++ ascii "\n") := by
  unfold siteOk at hs
  simp only [Bool.or_eq_true, Bool.and_eq_true, beq_iff_eq, List.all_eq_true, decide_eq_true_eq] at hs
  rcases hs with ⟨h1, h2⟩ | ⟨⟨⟨h1, h0⟩, h3⟩, h4⟩
  · obtain ⟨a, rfl⟩ : ∃ a, args = [a] := by
      have hl : args.length = 1 := by
        rcases h1 with h | h
        · have := congrArg List.length h; simpa using this
        · have := congrArg List.length h; simpa using this
      match args, hl with
      | [a], _ => exact ⟨a, rfl⟩
    have ht : texty a.kind = false := by
      rcases h1 with h | h
      · simp only [List.map_cons, List.map_nil, List.cons.injEq, and_true] at h; simp [h, texty]
      · simp only [List.map_cons, List.map_nil, List.cons.injEq, and_true] at h; simp [h, texty]
    obtain ⟨g1, g2⟩ := stringify_none a ht
    refine ⟨[], ascii (template code), ?_, ascii_fills _ h2, ?_⟩
    · simp
    · simp only [fmtMessage, List.map_cons, List.map_nil, List.cons_append, List.nil_append, stringifyAll, List.head?_cons]
      rw [g1]
      simp [getErrorMsg, locationStr_eq a [], prefix_eq]
  · have hall : ∀ a ∈ args, texty a.kind = true := fun a ha => h1 a.kind (List.mem_map_of_mem ha)
    obtain ⟨ms, e1, e2, e3⟩ := stringifyAll_texts args hall
    cases hh : holes (template code).toList with
    | none => rw [hh] at h4; simp at h4
    | some n =>
      rw [hh] at h4
      simp only [decide_eq_true_eq, List.length_map] at h4 h3 h0
      obtain ⟨out, p1, p2⟩ := printfS_fills _ (ms.map Message.text) n hh (by simpa [e2] using h4)
      refine ⟨_, out, ?_, p2, ?_⟩
      · rw [e3]; exact List.take_prefix _ _
      · cases args with
        | nil => simp at h0
        | cons a rest =>
          have hg : getErrorMsg code ms = some out := by
            match ms, e2 with
            | [m1], _ => exact p1
            | [m1, m2], _ => exact p1
            | [m1, m2, m3], _ => exact p1
            | m1 :: m2 :: m3 :: m4 :: ms, e2 => simp only [List.length_cons] at e2 h3; omega
          simp only [fmtMessage]
          rw [e1]
          simp [hg, locationStr_eq a rest, prefix_eq]

end Skull
