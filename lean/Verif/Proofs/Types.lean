import Verif.Model.Types
import Verif.Spec.TypeSpec
import Verif.Proofs.Containers
import Verif.Proofs.Paths
/-
The table of reference types.
-/
namespace Skull
open Spec

/-- The pointers a sequence of constructions gives. -/
def ptrRun (ts : TypeState) (done : List (Option TyPtr)) : List TyOp → Option (List (Option TyPtr) × TypeState)
  | [] => some (done, ts)
  | .builtin p :: ops => ptrRun ts (done ++ [some (.builtin p)]) ops
  | .refTo i :: ops =>
    match getReferenceType ts (done[i]?).join with
    | none => none
    | some (r, ts) => ptrRun ts (done ++ [r]) ops

theorem prim_name_inj {p q : Prim} (h : p.name = q.name) : p = q := by
  cases p <;> cases q <;> first | rfl | (revert h; decide)

theorem prim_name_ne (p : Prim) (s : List Char) : p.name ≠ '&' :: s := by
  cases p <;> (intro h; simp [Prim.name] at h)

theorem spelling_inj : ∀ {t u : Ty}, typeSpelling t = typeSpelling u → t = u
  | .prim p, .prim q, h => by rw [prim_name_inj h]
  | .prim p, .ref u, h => absurd h (prim_name_ne p _)
  | .ref t, .prim q, h => absurd h.symm (prim_name_ne q _)
  | .ref t, .ref u, h => by
    simp only [typeSpelling, List.cons.injEq, true_and] at h
    rw [spelling_inj h]

theorem spelling_nonul : ∀ t : Ty, '\x00' ∉ typeSpelling t
  | .prim p => by cases p <;> decide
  | .ref t => by
    simp only [typeSpelling, List.mem_cons, not_or]
    exact ⟨by decide, spelling_nonul t⟩

/-- The type behind a pointer, when the allocated types stand for `den`. -/
def denote (den : List Ty) : TyPtr → Option Ty
  | .builtin p => some (.prim p)
  | .dyn i => den[i]?

/-- The allocated types stand for `den`, without repetition, and the table finds each of them by the name of its inner type. -/
structure TyInv (ts : TypeState) (den : List Ty) : Prop where
  len : ts.dyn.length = den.length
  dyn : ∀ (i : Nat) (d : DynType), ts.dyn[i]? = some d →
    ∃ t, denote den d.inner = some t ∧ den[i]? = some (.ref t) ∧ d.name = typeSpelling (.ref t)
  inj : ∀ i j : Nat, den[i]? = den[j]? → i < den.length → i = j
  table : ∃ ins, (∀ ht, ts.refs = some ht → HRep ht ins) ∧ (ts.refs = none → ins = []) ∧
    ∀ name i, firstValue ins name = some i ↔ ∃ t, name = typeSpelling t ∧ den[i]? = some (.ref t)

theorem readStr_chars : ∀ {s : List Char} (rest : Buf), '\x00' ∉ s → readStr (s.map some ++ some '\x00' :: rest) = some s
  | [], rest, _ => by simp [readStr]
  | c :: s, rest, h => by
    simp only [List.mem_cons, not_or] at h
    have := readStr_chars rest h.2
    simp only [List.map_cons, List.cons_append, readStr, this]
    rw [if_neg (fun e => h.1 e.symm)]
    rfl

theorem refName_eq {name : List Char} (h : name.length + 2 < 2 ^ 64) (hn : '\x00' ∉ name) :
    refName name = some ('&' :: name) := by
  have h1 : addSize name.length 2 = name.length + 2 := Nat.mod_eq_of_lt h
  have h2 : addSize name.length 1 = name.length + 1 := Nat.mod_eq_of_lt (by omega)
  unfold refName
  simp only [h1, h2, malloc, putByte, List.length_replicate]
  rw [if_pos (by omega)]
  simp only [Option.bind_some, strncpyTo, List.length_set, List.length_replicate]
  rw [if_pos (by omega)]
  simp only [Option.bind_some]
  have e1 : ((List.replicate (name.length + 2) (none : Option Char)).set 0 (some '&')).take 1 = [some '&'] := by
    rw [List.replicate_succ]; rfl
  have e2 : List.take (name.length + 1) name = name := List.take_of_length_le (by omega)
  have e3 : name.length + 1 - name.length = 1 := by omega
  have e4 : List.drop (1 + (name.length + 1)) ((List.replicate (name.length + 2) (none : Option Char)).set 0 (some '&')) = [] :=
    List.drop_eq_nil_of_le (by simp; omega)
  rw [e1, e2, e3, e4]
  have hamp : '\x00' ∉ '&' :: name := by simp only [List.mem_cons, not_or]; exact ⟨by decide, hn⟩
  have := readStr_chars (s := '&' :: name) [] hamp
  simpa using this

theorem TyInv.get {ts : TypeState} {den : List Ty} (h : TyInv ts den) {i : Nat} (hi : i < den.length) :
    ∃ d, ts.dyn[i]? = some d := by
  rw [← h.len] at hi
  exact ⟨_, List.getElem?_eq_getElem hi⟩

theorem typeName_denote {ts : TypeState} {den : List Ty} (h : TyInv ts den) {p : TyPtr} {t : Ty}
    (hp : denote den p = some t) : typeName ts p = some (typeSpelling t) := by
  cases p with
  | builtin q => simp only [denote, Option.some.injEq] at hp; subst hp; rfl
  | dyn i =>
    simp only [denote] at hp
    have hi : i < den.length := by
      rcases Nat.lt_or_ge i den.length with h | h
      · exact h
      · rw [List.getElem?_eq_none h] at hp; cases hp
    obtain ⟨d, hd⟩ := h.get hi
    obtain ⟨u, _, h2, h3⟩ := h.dyn i _ hd
    rw [hp] at h2
    cases h2
    simp [typeName, hd, h3]

theorem denote_append {den : List Ty} {p : TyPtr} {t : Ty} (more : List Ty) (h : denote den p = some t) :
    denote (den ++ more) p = some t := by
  cases p with
  | builtin q => exact h
  | dyn i =>
    simp only [denote] at h ⊢
    have hi : i < den.length := by
      rcases Nat.lt_or_ge i den.length with hh | hh
      · exact hh
      · rw [List.getElem?_eq_none hh] at h; cases h
    rw [List.getElem?_append_left hi, h]

theorem denote_inj {ts : TypeState} {den : List Ty} (h : TyInv ts den) {p q : TyPtr} {t : Ty}
    (hp : denote den p = some t) (hq : denote den q = some t) : p = q := by
  cases p with
  | builtin a =>
    cases q with
    | builtin b => simp only [denote, Option.some.injEq] at hp hq; rw [← hq] at hp; cases hp; rfl
    | dyn j =>
      exfalso
      simp only [denote, Option.some.injEq] at hp hq
      have hj : j < den.length := by
        rcases Nat.lt_or_ge j den.length with hh | hh
        · exact hh
        · rw [List.getElem?_eq_none hh] at hq; cases hq
      obtain ⟨d, hd⟩ := h.get hj
      obtain ⟨u, _, h2, _⟩ := h.dyn j _ hd
      rw [hq] at h2; cases h2; cases hp
  | dyn i =>
    have hi : i < den.length := by
      simp only [denote] at hp
      rcases Nat.lt_or_ge i den.length with hh | hh
      · exact hh
      · rw [List.getElem?_eq_none hh] at hp; cases hp
    cases q with
    | builtin b =>
      exfalso
      simp only [denote, Option.some.injEq] at hp hq
      obtain ⟨d, hd⟩ := h.get hi
      obtain ⟨u, _, h2, _⟩ := h.dyn i _ hd
      rw [hp] at h2; cases h2; cases hq
    | dyn j =>
      simp only [denote] at hp hq
      rw [h.inj i j (by rw [hp, hq]) hi]

theorem tyInv_init : TyInv {} [] where
  len := rfl
  dyn := by intro i d h; simp at h
  inj := by intro i j _ h; simp at h
  table := ⟨[], by simp, by simp, by intro n i; simp [firstValue]⟩

theorem getReferenceType_inv {ts : TypeState} {den : List Ty} (h : TyInv ts den) {p : TyPtr} {t : Ty}
    (hp : denote den p = some t) (hl : (typeSpelling t).length + 2 < 2 ^ 64) :
    ∃ q ts' den', getReferenceType ts (some p) = some (some q, ts') ∧ TyInv ts' den' ∧ denote den' q = some (.ref t) ∧
      ∃ more, den' = den ++ more := by
  obtain ⟨ins, hi1, hi2, hi3⟩ := h.table
  have hname := typeName_denote h hp
  unfold getReferenceType
  simp only [hname]
  have hrep : HRep (refsOrNew ts.refs) ins := by
    cases hr : ts.refs with
    | some ht => exact hi1 ht hr
    | none => rw [hi2 hr]; exact hrep_make
  generalize (refsOrNew ts.refs) = refs at hrep
  rw [hrep_get hrep]
  cases hf : firstValue ins (typeSpelling t) with
  | some k =>
    refine ⟨.dyn k, _, den, rfl, ⟨h.len, h.dyn, h.inj, ins, ?_, ?_, hi3⟩, ?_, [], by simp⟩
    · intro ht e; cases e; exact hrep
    · intro e; cases e
    · obtain ⟨u, hu, hd⟩ := (hi3 _ _).1 hf
      rw [spelling_inj hu] 
      exact hd
  | none =>
    simp only [refName_eq hl (spelling_nonul t)]
    obtain ⟨ht', ha, hr'⟩ := hrep_add hrep (typeSpelling t) ts.dyn.length
    simp only [ha]
    have hnot : ∀ i : Nat, den[i]? ≠ some (Ty.ref t) := by
      intro i hi
      have := (hi3 (typeSpelling t) i).2 ⟨t, rfl, hi⟩
      rw [hf] at this; cases this
    have hlen := h.len
    refine ⟨_, _, den ++ [.ref t], rfl, ⟨?_, ?_, ?_, ins ++ [(typeSpelling t, ts.dyn.length)], ?_, ?_, ?_⟩, ?_, [.ref t], rfl⟩
    · simp [h.len]
    · intro i d hd
      rcases Nat.lt_trichotomy i ts.dyn.length with hlt | heq | hgt
      · rw [List.getElem?_append_left hlt] at hd
        obtain ⟨u, h1, h2, h3⟩ := h.dyn i d hd
        exact ⟨u, denote_append _ h1, by rw [List.getElem?_append_left (by omega), h2], h3⟩
      · subst heq
        rw [List.getElem?_concat_length] at hd
        cases hd
        refine ⟨t, denote_append _ hp, by rw [h.len, List.getElem?_concat_length], rfl⟩
      · rw [List.getElem?_eq_none (by simp; omega)] at hd; cases hd
    · intro i j hij hi
      simp only [List.length_append, List.length_cons, List.length_nil] at hi
      have hi' : i < den.length ∨ i = den.length := by omega
      rcases hi' with hi | hi
      · rw [List.getElem?_append_left hi] at hij
        rcases Nat.lt_trichotomy j den.length with hj | hj | hj
        · rw [List.getElem?_append_left hj] at hij
          exact h.inj i j hij hi
        · subst hj
          rw [List.getElem?_concat_length] at hij
          exact absurd hij (hnot i)
        · rw [List.getElem?_eq_none (l := den ++ [_]) (by simp; omega), List.getElem?_eq_getElem hi] at hij
          cases hij
      · subst hi
        rw [List.getElem?_concat_length] at hij
        rcases Nat.lt_trichotomy j den.length with hj | hj | hj
        · rw [List.getElem?_append_left hj] at hij
          exact absurd hij.symm (hnot j)
        · exact hj.symm
        · rw [List.getElem?_eq_none (by simp; omega)] at hij; cases hij
    · intro ht e; cases e; exact hr'
    · intro e; cases e
    · intro name i
      rw [firstValue_append_single]
      constructor
      · intro hv
        cases hn : firstValue ins name with
        | some k =>
          rw [hn] at hv; cases hv
          obtain ⟨u, h1, h2⟩ := (hi3 name _).1 hn
          refine ⟨u, h1, ?_⟩
          rw [List.getElem?_append_left, h2]
          rcases Nat.lt_or_ge i den.length with hh | hh
          · exact hh
          · rw [List.getElem?_eq_none hh] at h2; cases h2
        | none =>
          rw [hn] at hv
          by_cases hk : typeSpelling t = name
          · simp only [hk, if_true, Option.some.injEq] at hv
            subst hv
            exact ⟨t, hk.symm, by rw [h.len, List.getElem?_concat_length]⟩
          · simp [hk] at hv
      · rintro ⟨u, rfl, h2⟩
        rcases Nat.lt_trichotomy i den.length with hj | hj | hj
        · rw [List.getElem?_append_left hj] at h2
          rw [(hi3 _ i).2 ⟨u, rfl, h2⟩]
        · subst hj
          rw [List.getElem?_concat_length] at h2
          cases h2
          rw [hf]
          simp [h.len]
        · rw [List.getElem?_eq_none (by simp; omega)] at h2; cases h2
    · simp only [denote, h.len, List.getElem?_concat_length]

/-- The pointers stand for the types. -/
def Stands (den : List Ty) (ps : List (Option TyPtr)) (ts : List (Option Ty)) : Prop :=
  ps.length = ts.length ∧ ∀ i : Nat, match (ps[i]?).join with
    | none => (ts[i]?).join = none
    | some p => ∃ t, denote den p = some t ∧ (ts[i]?).join = some t

theorem Stands.append {den : List Ty} {ps : List (Option TyPtr)} {ts : List (Option Ty)} (h : Stands den ps ts)
    {p : Option TyPtr} {t : Option Ty} (hpt : match p with | none => t = none | some p => ∃ u, denote den p = some u ∧ t = some u) :
    Stands den (ps ++ [p]) (ts ++ [t]) := by
  refine ⟨by simp [h.1], fun i => ?_⟩
  rcases Nat.lt_trichotomy i ps.length with hi | hi | hi
  · rw [List.getElem?_append_left hi, List.getElem?_append_left (by rw [← h.1]; exact hi)]
    exact h.2 i
  · subst hi
    rw [List.getElem?_concat_length, h.1, List.getElem?_concat_length]
    simpa using hpt
  · rw [List.getElem?_eq_none (by simp; omega), List.getElem?_eq_none (by simp [← h.1]; omega)]
    simp

theorem Stands.mono {den more : List Ty} {ps : List (Option TyPtr)} {ts : List (Option Ty)} (h : Stands den ps ts) :
    Stands (den ++ more) ps ts := by
  refine ⟨h.1, fun i => ?_⟩
  have := h.2 i
  cases hp : (ps[i]?).join with
  | none => rw [hp] at this; exact this
  | some p =>
    rw [hp] at this
    obtain ⟨t, h1, h2⟩ := this
    exact ⟨t, denote_append _ h1, h2⟩

/-- No type among the first `n` constructions is longer than `n + 5` characters. -/
def Short (ts : List (Option Ty)) : Prop := ∀ (i : Nat) (t : Ty), (ts[i]?).join = some t → (typeSpelling t).length ≤ ts.length + 5

theorem prim_name_len (p : Prim) : p.name.length ≤ 5 := by cases p <;> decide

theorem Short.append {ts : List (Option Ty)} (h : Short ts) {t : Option Ty}
    (ht : ∀ u, t = some u → (typeSpelling u).length ≤ ts.length + 6) : Short (ts ++ [t]) := by
  intro i u hu
  simp only [List.length_append, List.length_cons, List.length_nil]
  rcases Nat.lt_trichotomy i ts.length with hi | hi | hi
  · rw [List.getElem?_append_left hi] at hu
    have := h i u hu
    omega
  · subst hi
    rw [List.getElem?_concat_length] at hu
    have := ht u (by simpa using hu)
    omega
  · rw [List.getElem?_eq_none (by simp; omega)] at hu; simp at hu

theorem ptrRun_inv : ∀ (ops : List TyOp) (ts : TypeState) (den : List Ty) (ps : List (Option TyPtr)) (done : List (Option Ty)),
    TyInv ts den → Stands den ps done → Short done → done.length + ops.length < 2 ^ 63 →
    ∃ ps' ts' den', ptrRun ts ps ops = some (ps', ts') ∧ TyInv ts' den' ∧ Stands den' ps' (tyRun done ops)
  | [], ts, den, ps, done, h1, h2, _, _ => ⟨ps, ts, den, rfl, h1, h2⟩
  | .builtin p :: ops, ts, den, ps, done, h1, h2, h3, h4 => by
    simp only [ptrRun, tyRun]
    refine ptrRun_inv ops ts den _ _ h1 (h2.append ⟨.prim p, rfl, rfl⟩) (h3.append ?_) ?_
    · intro u hu
      cases hu
      have := prim_name_len p
      simp only [typeSpelling]; omega
    · simp only [List.length_append, List.length_cons, List.length_nil] at h4 ⊢; omega
  | .refTo i :: ops, ts, den, ps, done, h1, h2, h3, h4 => by
    simp only [ptrRun, tyRun]
    simp only [List.length_cons] at h4
    have hs := h2.2 i
    cases hp : (ps[i]?).join with
    | none =>
      rw [hp] at hs
      simp only at hs
      simp only [hs, getReferenceType, Option.map_none]
      refine ptrRun_inv ops ts den _ _ h1 (h2.append rfl) (h3.append (by simp)) ?_
      simp only [List.length_append, List.length_cons, List.length_nil]; omega
    | some p =>
      rw [hp] at hs
      obtain ⟨t, hd, ht⟩ := hs
      have hl := h3 i t ht
      obtain ⟨q, ts', den', e1, e2, e3, more, e4⟩ := getReferenceType_inv h1 hd (by omega)
      simp only [e1, ht, Option.map_some]
      refine ptrRun_inv ops ts' den' _ _ e2 ?_ (h3.append ?_) ?_
      · subst e4
        exact (h2.mono).append ⟨_, e3, rfl⟩
      · intro u hu
        cases hu
        simp only [typeSpelling, List.length_cons]; omega
      · simp only [List.length_append, List.length_cons, List.length_nil]; omega

theorem tyRun_length : ∀ (ops : List TyOp) (done : List (Option Ty)), (tyRun done ops).length = done.length + ops.length
  | [], done => by simp [tyRun]
  | .builtin p :: ops, done => by simp only [tyRun, tyRun_length ops, List.length_append, List.length_cons, List.length_nil]; omega
  | .refTo i :: ops, done => by simp only [tyRun, tyRun_length ops, List.length_append, List.length_cons, List.length_nil]; omega

end Skull
