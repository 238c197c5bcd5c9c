import Verif.Proofs.Elab
/-
Running a tree directly and running the checked tree: when the two states are the same.
-/
namespace Skull.Elab
open Skull.Spec

/-- Which thing a declaration has become. -/
abbrev Map := Nat → Option Nat

def Sub (κ κ' : Map) : Prop := ∀ i j, κ i = some j → κ' i = some j

theorem Sub.refl (κ : Map) : Sub κ κ := fun _ _ h => h
theorem Sub.trans {κ κ' κ'' : Map} (h : Sub κ κ') (h' : Sub κ' κ'') : Sub κ κ'' := fun i j hi => h' i j (h i j hi)

def Map.put (κ : Map) (id k : Nat) : Map := fun i => if i = id then some k else κ i

theorem Map.put_self (κ : Map) (id k : Nat) : κ.put id k id = some k := by simp [Map.put]
theorem Map.put_ne (κ : Map) {id k i : Nat} (h : i ≠ id) : κ.put id k i = κ i := by simp [Map.put, h]

/-- Names stand for the same. -/
def NamesRel (κ : Map) : Names → List (List Char × Nat) → Prop
  | [], [] => True
  | p :: N, q :: V => p.1 = q.1 ∧ κ q.2 = some p.2 ∧ NamesRel κ N V
  | _, _ => False

theorem NamesRel.mono {κ κ' : Map} : ∀ {N V}, (∀ q ∈ V, ∀ j, κ q.2 = some j → κ' q.2 = some j) → NamesRel κ N V → NamesRel κ' N V
  | [], [], _, _ => trivial
  | p :: N, q :: V, hs, h => ⟨h.1, hs q (.head _) _ h.2.1, NamesRel.mono (fun r hr => hs r (.tail _ hr)) h.2.2⟩

theorem NamesRel.sub {κ κ' : Map} {N V} (h : NamesRel κ N V) (hs : Sub κ κ') : NamesRel κ' N V := h.mono fun _ _ _ => hs _ _

theorem NamesRel.lookup {κ : Map} {x} : ∀ {N V}, NamesRel κ N V →
    (V.lookup x = none ∧ N.lookup x = none) ∨ ∃ i j, V.lookup x = some i ∧ N.lookup x = some j ∧ κ i = some j
  | [], [], _ => .inl ⟨rfl, rfl⟩
  | (y, j) :: N, (y', i) :: V, h => by
    obtain ⟨h1, h2, h3⟩ := h
    simp only at h1 h2
    subst h1
    rw [List.lookup_cons, List.lookup_cons]
    cases hx : x == y with
    | true => exact .inr ⟨i, j, rfl, rfl, h2⟩
    | false => exact NamesRel.lookup h3

/-- A thing is what a declaration says. -/
def EntRel (κ : Map) : Decl → Thing → Prop
  | .var τ _, .var τ' _ => τ' = τ
  | .func _ τ, .func _ τ' _ _ => τ' = τ
  | .alias τ, .alias τ' => τ = none ∨ τ' = τ
  | .ns ms, .ns ms' => ms = [] ∨ NamesRel κ ms' ms
  | _, _ => False

theorem EntRel.sub {κ κ' : Map} {d x} (h : EntRel κ d x) (hs : Sub κ κ') : EntRel κ' d x := by
  cases d <;> cases x <;> first | exact h | skip
  exact h.imp id fun h => h.sub hs

/-- How things change. -/
inductive Evo : Thing → Thing → Prop
  | same {x} : Evo x x
  | var {τ v v'} : Evo (.var τ v) (.var τ v')
  | ns {ms} : Evo (.ns []) (.ns ms)

theorem Evo.trans {x y z} (h : Evo x y) (h' : Evo y z) : Evo x z := by
  cases h with
  | same => exact h'
  | var => cases h' <;> exact .var
  | ns => cases h' <;> exact .ns

theorem EntRel.evo {κ : Map} {d x y} (h : EntRel κ d x) (he : Evo x y) : EntRel κ d y := by
  cases he with
  | same => exact h
  | var => cases d <;> exact h
  | ns =>
    cases d <;> first | exact h | skip
    rename_i ms
    cases ms with
    | nil => exact .inl rfl
    | cons p ms => rcases h with h | h <;> cases h

def Evolves (D D' : List Thing) : Prop := ∀ (j : Nat) (x : Thing), D[j]? = some x → ∃ x', D'[j]? = some x' ∧ Evo x x'

theorem Evolves.refl (D : List Thing) : Evolves D D := fun _ x h => ⟨x, h, .same⟩
theorem Evolves.trans {D D' D'' : List Thing} (h : Evolves D D') (h' : Evolves D' D'') : Evolves D D'' := by
  intro j x hx
  obtain ⟨y, h1, h2⟩ := h j x hx
  obtain ⟨z, h3, h4⟩ := h' j y h1
  exact ⟨z, h3, h2.trans h4⟩

theorem lt_of_get {α : Type} {l : List α} {i : Nat} {a : α} (h : l[i]? = some a) : i < l.length := by
  rcases Nat.lt_or_ge i l.length with h' | h'
  · exact h'
  · rw [List.getElem?_eq_none h'] at h; cases h

theorem get_append {α : Type} {l : List α} {i : Nat} {a : α} (h : l[i]? = some a) (m : List α) : (l ++ m)[i]? = some a := by
  rw [List.getElem?_append_left (lt_of_get h)]; exact h

theorem Evolves.append (D m : List Thing) : Evolves D (D ++ m) := fun _ x h => ⟨x, get_append h m, .same⟩

theorem Evolves.len {D D' : List Thing} (h : Evolves D D') : D.length ≤ D'.length := by
  rcases Nat.eq_zero_or_pos D.length with h0 | h0
  · omega
  · obtain ⟨x, h1, _⟩ := h (D.length - 1) _ (List.getElem?_eq_getElem (by omega))
    have := lt_of_get h1
    omega

/-- Every declaration that is alive is a thing. -/
def Ents (κ : Map) (Δ : List Decl) (D : List Thing) (val : Nat → Val → Prop) : Prop :=
  ∀ (i j : Nat), κ i = some j → ∃ d x, Δ[i]? = some d ∧ D[j]? = some x ∧ EntRel κ d x ∧ ∀ τ v, x = .var τ v → val i v

/- ### Names are looked up alike -/

section Names
variable {κ : Map} {E : Env} {D : List Thing} {N : Names} {val : Nat → Val → Prop}

theorem seek_of {Δ : List Decl} (he : Ents κ Δ D val) : ∀ (p : List (List Char)) {N : Names} {V : List (List Char × Nat)} {i},
    NamesRel κ N V → follow Δ V p = some i → ∃ j, seek D N p = some j ∧ κ i = some j
  | [], _, _, _, _, h => by simp [follow] at h
  | [x], N, V, i, hn, h => by
    simp only [follow] at h
    rcases hn.lookup (x := x) with ⟨h1, _⟩ | ⟨i', j, h1, h2, h3⟩
    · rw [h1] at h; cases h
    · rw [h1] at h
      cases h
      exact ⟨j, h2, h3⟩
  | x :: y :: more, N, V, i, hn, h => by
    simp only [follow] at h
    rcases hn.lookup (x := x) with ⟨h1, _⟩ | ⟨i', j, h1, h2, h3⟩
    · rw [h1] at h; cases h
    · rw [h1] at h
      simp only [Option.bind_some] at h
      obtain ⟨d, th, g1, g2, g3, _⟩ := he i' j h3
      rw [g1] at h
      cases d with
      | ns ms =>
        simp only at h
        cases th with
        | ns ms' =>
          rcases g3 with rfl | g3
          · cases more with
            | nil => simp [follow] at h
            | cons => simp [follow] at h
          · obtain ⟨k, k1, k2⟩ := seek_of he (y :: more) g3 h
            refine ⟨k, ?_, k2⟩
            simp only [seek, h2, Option.bind_some, g2]
            exact k1
        | _ => cases g3
      | _ => cases h

theorem standsFor_of (he : Ents κ E.decls D val) (hn : NamesRel κ N E.vis) {t x i} (ht : Text t x) (h : E.resolve x = some i) :
    ∃ j, standsFor D N t = some j ∧ κ i = some j := by
  obtain ⟨j, h1, h2⟩ := seek_of he _ hn h
  refine ⟨j, ?_, h2⟩
  unfold standsFor
  rw [ht]
  exact h1

theorem path_plain : ∀ {x : List Char}, '.' ∉ x → path x = [x]
  | [], _ => rfl
  | c :: s, h => by
    rw [List.mem_cons, not_or] at h
    rw [path, if_neg (fun e => h.1 e.symm), path_plain h.2]

theorem builtin_plain {x τ} (h : builtinType x = some τ) : '.' ∉ x := by
  unfold builtinType at h
  have := List.find?_some h
  have hx : typeSpelling τ = x := by simpa using this
  have hm := List.mem_of_find?_eq_some h
  rw [← hx]
  simp only [List.map_cons, List.map_nil, List.mem_cons, List.not_mem_nil, or_false] at hm
  rcases hm with rfl | rfl | rfl | rfl | rfl | rfl <;> decide

theorem typeFor_of (he : Ents κ E.decls D val) (hn : NamesRel κ N E.vis) {t x σ} (ht : Text t x) (h : E.typeNamed x = some σ) :
    typeFor D N t = some σ := by
  unfold Env.typeNamed Env.decl at h
  unfold typeFor
  cases hr : E.resolve x with
  | some i =>
    obtain ⟨j, h1, h2⟩ := standsFor_of he hn ht hr
    obtain ⟨d, th, g1, g2, g3, _⟩ := he i j h2
    rw [h1, Option.bind_some, g2]
    rw [hr, Option.bind_some, g1] at h
    cases d <;> cases th <;> first | (exact g3.elim; done) | skip
    case alias τ τ' =>
      simp only at h ⊢
      subst h
      rcases g3 with g3 | g3
      · cases g3
      · exact g3
    all_goals
      simp only at h ⊢
      rw [ht, Option.bind_some]
      exact h
  | none =>
    rw [hr] at h
    simp only [Option.bind_none] at h
    have hp := path_plain (builtin_plain h)
    have hs : standsFor D N t = none := by
      unfold standsFor
      rw [ht, Option.bind_some, hp]
      unfold Env.resolve at hr
      rw [hp] at hr
      simp only [follow] at hr
      simp only [seek]
      rcases hn.lookup (x := x) with ⟨_, h2⟩ | ⟨i', j, h1, _, _⟩
      · exact h2
      · rw [h1] at hr; cases hr
    rw [hs, Option.bind_none, ht]
    exact h

theorem typeFrom_of (he : Ents κ E.decls D val) (hn : NamesRel κ N E.vis) : ∀ {toks : List Token} {o σ}, TypeAt E toks o → o = some σ →
    typeFrom D N toks = some σ := by
  intro toks o σ h
  induction h generalizing σ with
  | name h1 h2 =>
    intro ho
    simp only [typeFrom]
    rw [if_pos h1]
    exact typeFor_of he hn h2 ho
  | ref h1 h2 ih =>
    intro ho
    rename_i t rest τ
    simp only [typeFrom]
    rw [if_neg (by rw [h1]; simp), if_pos h1]
    cases τ with
    | none => cases ho
    | some τ => rw [ih rfl]; exact ho
  | other => intro ho; cases ho

theorem retFrom_of (he : Ents κ E.decls D val) (hn : NamesRel κ N E.vis) {o τ} (h : RetType E o τ) : retFrom D N o = some τ := by
  cases o with
  | none => simp only [RetType] at h; subst h; rfl
  | some toks => exact typeFrom_of he hn h rfl

theorem typeFrom_none (he : Ents κ E.decls D val) (hn : NamesRel κ N E.vis) : ∀ {toks : List Token}, NoType E toks →
    typeFrom D N toks = none
  | [], _ => rfl
  | t :: rest, h => by
    unfold NoType at h
    simp only [typeFrom]
    split
    · rename_i hn'
      rw [if_pos hn'] at h
      obtain ⟨x, id, d, h1, h2, h3, hu, h4⟩ := h
      obtain ⟨j, g1, g2⟩ := standsFor_of he hn h1 h2
      obtain ⟨d', th, k1, k2, k3, _⟩ := he id j g2
      rw [h3] at k1
      cases k1
      unfold typeFor
      rw [g1, Option.bind_some, k2]
      cases d <;> first | (exact hu.elim) | skip
      all_goals
        cases th <;> first | (exact k3.elim) | skip
        simp only
        rw [h1]; exact h4
    · rename_i hn'
      rw [if_neg hn'] at h
      split
      · rename_i hr
        rw [if_pos hr] at h
        rw [typeFrom_none he hn h]
        rfl
      · rfl

end Names
end Skull.Elab
