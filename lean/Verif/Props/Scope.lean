import Verif.Proofs.ScopeRun
/-
C33: names and scopes.
-/
namespace Skull
open Spec

/-! ## C33 A name denotes the innermost declaration in force -/

/-- After every sequence of declarations and blocks, the lookup of a name without a dot ends and gives the declaration of the
innermost block that has one, or nothing. -/
theorem C33_innermost (cfg : Cfg) (s : SS) (fs : Frames) (ds : List Decl) (h : ScopeRun cfg s fs ds) (x : List Char) (hx : '.' ∉ x) :
    lookup x s = .ok (innermost fs x) s := by
  obtain ⟨f, rest, B, rfl, hi, _⟩ := scopeRun_inv h
  rw [lookup_eq hi, innermost_eq]
  unfold Env.resolve
  rw [splitDot_none (splitDot_undotted hx)]
  rfl
where
  splitDot_undotted : ∀ {x : List Char}, '.' ∉ x → splitDot x = none
    | [], _ => rfl
    | c :: x, h => by
      simp only [List.mem_cons, not_or] at h
      simp [splitDot, Ne.symm h.1, splitDot_undotted h.2]

/-- Nothing of this is undefined: blocks can always begin, blocks that are open can end, and a name that is not visible can be
declared. -/
theorem C33_defined (cfg : Cfg) (s : SS) (fs : Frames) (ds : List Decl) (h : ScopeRun cfg s fs ds) :
    (∃ s', makeChildScope s = .ok () s') ∧ (2 ≤ fs.length → ∃ s', closeBlock s = .ok () s') ∧
    ∀ sym, Declarable sym → '.' ∉ sym.name → innermost fs sym.name = none → builtinType sym.name = none →
      ∃ s', declareSym sym s = .ok true s' := by
  obtain ⟨f, rest, B, rfl, hi, hp⟩ := scopeRun_inv h
  refine ⟨?_, ?_, ?_⟩
  · obtain ⟨h1, h2, _, _, i, sc, h3, h4⟩ := withScope_inv hi
    exact ⟨_, makeChild_eq hi h3 h4⟩
  · intro hl
    cases hp with
    | top => simp at hl
    | block h1 h2 h3 h4 h5 h6 => exact ⟨_, closeBlock_eq hi.blk.1 (under_of_frame h2 h3 h5).cur⟩
  · intro sym hd hx hn hb
    have hn' : (runEnv (f :: rest) ds).vis.lookup sym.name = none := by rw [← hn, innermost_eq]; rfl
    refine declare_complete hi (declarable_is hd ..) (.inl rfl) ?_ hn'
    unfold Env.Free Env.decl Env.resolve
    rw [splitDot_none (C33_innermost.splitDot_undotted hx)]
    simp [follow, hn', hb]

/-- A name that is declared is found from then on. -/
theorem C33_declared (cfg : Cfg) (s s' : SS) (fs : Frames) (ds : List Decl) (h : ScopeRun cfg s fs ds) (sym : Symbol) (hd : Declarable sym)
    (hx : '.' ∉ sym.name) (h1 : declareSym sym s = .ok true s') : lookup sym.name s' = .ok (some s.syms.length) s' := by
  obtain ⟨f, rest, B, rfl, _⟩ := scopeRun_inv h
  rw [C33_innermost cfg s' _ _ (.declare h hd h1) _ hx]
  simp [innermost]

/-- x := 1 { y := 2 { z := 3 } y? z? x? } -/
def sampleScopes : Option (List (Option Nat)) :=
  match setupState { filename := "a.sk".toList } with
  | none => none
  | some s =>
    let sym (x : String) : Symbol :=
      { name := x.toList, kind := .var { type := tInt, name := x.toList, linkageName := x.toList, isConst := true, isDefined := true } }
    let m : Chk (List (Option Nat)) := do
      let _ ← declareSym (sym "x")
      makeChildScope
      let _ ← declareSym (sym "y")
      makeChildScope
      let _ ← declareSym (sym "z")
      let a ← lookup "x".toList
      closeBlock
      let b ← lookup "y".toList
      let c ← lookup "z".toList
      let d ← lookup "x".toList
      pure [a, b, c, d]
    match m s with
    | .ok r _ => some r
    | _ => none

example : sampleScopes = some [some 1, some 2, none, some 1] := by decide +kernel

end Skull
