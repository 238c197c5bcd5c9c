import Verif.Proofs.OwnNames
import Verif.Props.CDebug
/-
C95: the names of variables and functions, and the names under which they are linked.
-/
namespace Skull
open Spec

/-- All that is known about an accepted source text in the module `m`. -/
theorem C95 {cfg : Cfg} {w : Bool} {src dir m : List Char} {ts toks : List Token} {t : Tree} {ps : PS} {a : ATree} {s : SS}
    (h1 : tokenize w src = some (.ok ts)) (h2 : classifyTokens ts = some toks) (h3 : parseAstTree toks = .ok (some t) ps)
    (hf : cfg.filename = dir ++ (m ++ ".sk".toList)) (hd : IsDir dir) (hb : IsBase m) (hn : NulFree m) (hl : m.length + src.length + 3 < 2 ^ 64)
    (h : semantic cfg t = .ok a s) : NamesOf m s.syms :=
  OwnNames.semantic_named (by rw [hf]; exact C21_entry_name dir m hd hb hn (by omega)) (OwnNames.source_names h1 h2 h3 hf hd hb hn hl) h

theorem ownName_line {x : List Char} (h : OwnName x) : '\n' ∉ x ∧ '#' ∉ x ∧ '.' ∉ x := by
  obtain ⟨⟨c, body, rfl, hc, hb⟩, _⟩ := h
  have key : ∀ d : Char, ¬ (Letter d ∨ Digit d ∨ d = '_') → d ∉ c :: body := by
    intro d hd hm
    rcases List.mem_cons.1 hm with rfl | hm
    · exact hd (.inl hc)
    · exact hd (hb d hm)
  exact ⟨key _ (by unfold Letter Digit; decide), key _ (by unfold Letter Digit; decide), key _ (by unfold Letter Digit; decide)⟩

/-- A name that is linked belongs to one thing: the program, an exported one or one that is not. -/
theorem C95_apart {m x y : List Char} (hx : OwnName x) (hy : OwnName y) (hm : m ≠ []) :
    linkedAs m true x ≠ '.' :: m ∧ linkedAs m false x ≠ '.' :: m ∧ linkedAs m true x ≠ linkedAs m false y ∧
      ∀ b, linkedAs m b x = linkedAs m b y → x = y := by
  refine ⟨fun e => ?_, fun e => ?_, fun e => ?_, fun b e => ?_⟩
  · have := congrArg List.length e
    obtain ⟨⟨c, body, rfl, _⟩, _⟩ := hx
    simp [linkedAs] at this
  · have e : x = '.' :: m := e
    exact (ownName_line hx).2.2 (by rw [e]; simp)
  · have e : m ++ ['.'] ++ x = y := e
    exact (ownName_line hy).2.2 (by rw [← e]; simp)
  · cases b with
    | false => exact e
    | true => exact List.append_cancel_left e

/-- C72 for source texts: nothing has to be said about the names of variables and functions. -/
theorem C72_source_partial {cfg : Cfg} {w : Bool} {src dir m : List Char} {ts toks : List Token} {t : Tree} {ps : PS} {a : ATree} {s : SS}
    (h1 : tokenize w src = some (.ok ts)) (h2 : classifyTokens ts = some toks) (h3 : parseAstTree toks = .ok (some t) ps)
    (hf : cfg.filename = dir ++ (m ++ ".sk".toList)) (hd : IsDir dir) (hb : IsBase m) (hn : NulFree m) (hl : m.length + src.length + 3 < 2 ^ 64)
    (h : semantic cfg t = .ok a s) (hm : C.OneLine m ∧ '#' ∉ m)
    (hs : ∀ sym ∈ s.syms, (∀ f, sym.kind ≠ .func f) → (∀ v, sym.kind ≠ .var v) → C.OneLine sym.name)
    {fmtA : Nat → List Char} {main file : List Char} {r : Option (List Char) × CState} (hr : genModuleC ⟨s.syms, some file, fmtA⟩ a = some r)
    (ho : C.oneLineT a = true) (hfmt : ∀ b, C.OneLine (fmtA b)) (hfile : C.PlainText file) (hmain : C.OneLine main) :
    ∃ r', genModuleC ⟨s.syms, none, fmtA⟩ a = some r' ∧
      TellsPlaces file a (fileC ⟨s.syms, some file, fmtA⟩ main r.1 r.2) (fileC ⟨s.syms, none, fmtA⟩ main r'.1 r'.2) := by
  refine C72_partial ⟨_, _, h3⟩ h hr ?_ ho hfmt hfile hmain
  obtain ⟨⟨e, k1, k2, k3, k4⟩, k⟩ := C95 h1 h2 h3 hf hd hb hn hl h
  have link : ∀ b x, OwnName x → C.OneLine (linkedAs m b x) := by
    intro b x hx
    cases b with
    | false => exact (ownName_line hx).1
    | true =>
      unfold linkedAs
      rw [if_pos rfl]
      intro hc
      simp only [List.mem_append, List.mem_singleton] at hc
      rcases hc with (hc | hc) | hc
      · exact hm.1 hc
      · cases hc
      · exact (ownName_line hx).1 hc
  intro sym hmem
  obtain ⟨i, hi⟩ := List.mem_iff_getElem?.1 hmem
  cases i with
  | zero =>
    rw [k1] at hi
    cases hi
    have one : C.OneLine ('.' :: m) := by
      intro hc
      rcases List.mem_cons.1 hc with hc | hc
      · cases hc
      · exact hm.1 hc
    refine ⟨by rw [k2]; exact one, fun f _ => ⟨?_, by rw [k3]; exact one⟩, fun v hv => absurd hv (k4 v)⟩
    rw [k2]
    intro hc
    rcases List.mem_cons.1 hc with hc | hc
    · cases hc
    · exact hm.2 hc
  | succ i =>
    have hN := k _ sym (by omega) hi
    unfold NamedIn at hN
    cases hk : sym.kind with
    | var v =>
      rw [hk] at hN
      obtain ⟨n1, n2, n3⟩ := hN
      have := ownName_line n1
      refine ⟨this.1, (fun f hf => by cases hf), fun v' hv => ?_⟩
      cases hv
      rw [n2, n3]
      exact ⟨this.1, this.2.1, link _ _ n1⟩
    | func f =>
      rw [hk] at hN
      obtain ⟨n1, n2⟩ := hN
      have := ownName_line n1
      refine ⟨this.1, fun f' hf => ⟨this.2.1, by rw [n2]; exact link _ _ n1⟩, fun v hv => by cases hv⟩
    | alias => exact ⟨hs sym hmem (fun f hf => by rw [hk] at hf; cases hf) (fun v hv => by rw [hk] at hv; cases hv), (fun f hf => by cases hf), (fun v hv => by cases hv)⟩
    | ns k => exact ⟨hs sym hmem (fun f hf => by rw [hk] at hf; cases hf) (fun v hv => by rw [hk] at hv; cases hv), (fun f hf => by cases hf), (fun v hv => by cases hv)⟩

/-- The names of a source, and the names under which they are linked. -/
def linked (src : String) : Option (List (String × String)) :=
  match checked sampleCfg src with
  | .ok _ s => some (s.syms.map fun sym => (String.ofList sym.name, String.ofList (match sym.kind with | .var v => v.linkageName | _ => sym.linkageName)))
  | _ => none

example : linked "export x := 1\nexport f(n: Int) Int {\nreturn n\n}\ny := f(x)\n" =
    some [(".a", ".a"), ("x", "a.x"), ("f", "a.f"), ("n", "n"), ("y", "y")] := by decide +kernel
-- an alias is named by the first token of its statement (types.c:280)
example : linked "export x := Int\n" = some [(".a", ".a"), ("export", "")] := by decide +kernel
-- and a namespace by the token behind its keyword
example : linked "namespace 1 {\nnoop\n}\n" = some [(".a", ".a"), ("1", "")] := by decide +kernel

end Skull
