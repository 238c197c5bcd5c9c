import Verif.Proofs.SemHeapFree
import Verif.Proofs.ParseCounted
import Verif.Proofs.TokenMain
/-
Parameters of functions in source texts are not named like a builtin type.
-/
namespace Skull.SemHeap

open Skull.Spec

theorem builtin_none {name : List Char} (h : isTypeStr name = false) : findBuiltinType name = none := by
  unfold isTypeStr builtinTypeNames at h
  simp only [List.any_cons, List.any_nil, Bool.or_eq_false_iff, beq_eq_false_iff_ne, ne_eq] at h
  obtain ⟨h1, h2, h3, h4, h5, h6, -⟩ := h
  have key : ∀ ps : List Prim, (∀ p ∈ ps, ¬ name = p.name) → findBuiltinLoop name ps = none := by
    intro ps
    induction ps with
    | nil => intro _; rfl
    | cons p ps ih =>
      intro hp
      rw [findBuiltinLoop, if_neg (hp p List.mem_cons_self)]
      exact ih fun q hq => hp q (List.mem_cons_of_mem _ hq)
  refine key _ fun p _ => ?_
  cases p
  · exact h1
  · exact h2
  · exact h3
  · exact h4
  · exact h5
  · exact h6

theorem tryWords_new (tab : List (List Char × TokType)) (h : ∀ p ∈ tab, p.2 ≠ .newIdentifier) (t : Token) (ty : TokType)
    (he : tryWords tab t = some (some ty)) : ty ≠ .newIdentifier := by
  induction tab with
  | nil => cases he
  | cons p tab ih =>
    obtain ⟨w, ty'⟩ := p
    simp only [tryWords] at he
    split at he
    · cases he
    · cases he; exact h _ List.mem_cons_self
    · exact ih (fun q hq => h q (List.mem_cons_of_mem _ hq)) he

theorem singleOper_new (c : Char) (ty : TokType) (h : singleOper c = some ty) : ty ≠ .newIdentifier := by
  unfold singleOper at h
  repeat' split at h
  all_goals first | (cases h; simp) | cases h

theorem classify_new {t t' : Token} (h : classifyToken t = some t') (hty : t.ty ≠ .newIdentifier) (hn : t'.ty = .newIdentifier)
    {str : List Char} (hs : tokenToString t' = some str) : findBuiltinType str = none := by
  unfold classifyToken at h
  split at h
  · cases h; exact absurd hn hty
  · dsimp only at h
    split at h
    · cases h
    · rename_i ty hsing
      cases h
      split at hsing
      · split at hsing
        · cases hsing
        · cases hsing
        · simp only [Option.some.injEq] at hsing
          exact absurd hn (singleOper_new _ _ hsing)
      · cases hsing
    · split at h
      · rename_i b str' hb hstr
        split at h
        · cases h
        · rename_i ty htry
          cases h
          exact absurd hn (tryWords_new _ (by decide) _ _ htry)
        · split at h
          · cases h
          · cases h; cases hn
          · split at h
            · cases h
            · cases h; cases hn
            · split at h
              · cases h; cases hn
              · split at h
                · cases h; cases hn
                · split at h
                  · cases h; cases hn
                  · split at h
                    · simp only [Option.some.injEq] at h
                      subst h
                      unfold classifyIdentifier at hn hs
                      dsimp only at hn hs
                      split at hn
                      · rename_i hcol
                        rw [if_pos hcol] at hs
                        split at hn
                        · cases hn
                        · rename_i hdot
                          rw [if_neg hdot] at hs
                          split at hn
                          · cases hn
                          · rename_i hres
                            rw [if_neg hres] at hs
                            simp only [Bool.or_eq_true, not_or, Bool.not_eq_true] at hres
                            unfold tokenToString at hs hstr
                            simp only [hb, Option.some.injEq] at hs hstr
                            subst hs
                            subst hstr
                            have := builtin_none hres.2
                            rwa [List.take_take, Nat.min_eq_left (Nat.sub_le _ _)] at this
                      · dsimp only at hn
                        split at hn <;> cases hn
                    · cases h; exact absurd hn hty
      · cases h

theorem classify_mem : ∀ {ts ts' : List Token}, classifyTokens ts = some ts' → ∀ t' ∈ ts', ∃ t ∈ ts, classifyToken t = some t'
  | [], ts', h, t', ht => by cases h; cases ht
  | t :: ts, ts', h, t', ht => by
    unfold classifyTokens at h
    split at h
    · cases h
    · rename_i u hu
      cases hr : classifyTokens ts with
      | none => rw [hr] at h; cases h
      | some rest =>
        rw [hr] at h
        cases h
        rcases List.mem_cons.mp ht with rfl | ht
        · exact ⟨t, List.mem_cons_self, hu⟩
        · obtain ⟨x, h1, h2⟩ := classify_mem hr t' ht
          exact ⟨x, List.mem_cons_of_mem _ h1, h2⟩

theorem classify_begin {t t' : Token} (h : classifyToken t = some t') : t'.begin = t.begin := by
  unfold classifyToken at h
  split at h
  · cases h; rfl
  · dsimp only at h
    repeat' split at h
    all_goals first
      | (cases h; rfl)
      | (cases h; done)
      | (cases h; unfold classifyIdentifier; dsimp only; (repeat' split) <;> rfl)

/-- The names of new things in a source text. -/
theorem new_names {w : Bool} {src : List Char} {toks toks' : List Token} (h1 : tokenize w src = some (.ok toks))
    (h2 : classifyTokens toks = some toks') {t' : Token} (ht : t' ∈ toks') (hn : t'.ty = .newIdentifier) {str : List Char}
    (hs : tokenToString t' = some str) : findBuiltinType str = none := by
  obtain ⟨t, hm, hc⟩ := classify_mem h2 t' ht
  have hb : t.begin.isSome := by
    rw [← classify_begin hc]
    unfold tokenToString at hs
    split at hs
    · cases hs
    · rename_i e; rw [e]; rfl
  obtain ⟨l, hl⟩ := real_matches h1 t hm hb
  refine classify_new hc ?_ hn hs
  rw [hl.ty]
  unfold kindType
  repeat' split
  all_goals simp

theorem params_names {a b : List Token} {ps : List Param} (h : ParamsOf a b ps) : ∀ p ∈ ps, p.name ∈ a ∧ p.name.ty = .newIdentifier := by
  induction h with
  | none => intro p hp; cases hp
  | last hn _ =>
    intro p hp
    rw [List.mem_singleton] at hp
    subst hp
    exact ⟨List.mem_cons_self, hn⟩
  | more hn _ _ _ ih =>
    intro p hp
    rcases List.mem_cons.mp hp with rfl | hp
    · exact ⟨List.mem_cons_self, hn⟩
    · obtain ⟨h1, h2⟩ := ih p hp
      exact ⟨List.mem_cons_of_mem _ (List.mem_append_right _ (List.mem_cons_of_mem _ h1)), h2⟩

theorem written_params {pos ts : List Token} {st : Stmt} (h : Written pos ts st) :
    ∀ p, st = .funcProto p → ∀ q ∈ p.params, q.name ∈ pos ∧ q.name.ty = .newIdentifier := by
  cases h
  case func hps _ _ _ =>
    intro p hp q hq
    cases hp
    obtain ⟨h1, h2⟩ := params_names hps q (List.mem_of_mem_take hq)
    exact ⟨List.mem_append_right _ (List.mem_cons_of_mem _ (List.mem_cons_of_mem _ h1)), h2⟩
  all_goals intro p hp; cases hp

theorem paramsOk_of {t : Tree} (h : AllStmts (fun st => ∀ p, st = .funcProto p → ∀ q ∈ p.params, ParamOk q) t) : ParamsOk t := by
  induction t with
  | nil => trivial
  | node st tok te child next ih1 ih2 =>
    obtain ⟨h1, h2, h3⟩ := h
    exact ⟨h1, ih1 h2, ih2 h3⟩

theorem parsed_params {w : Bool} {src : List Char} {toks toks' : List Token} {t : Tree} {s : PS}
    (h1 : tokenize w src = some (.ok toks)) (h2 : classifyTokens toks = some toks') (h3 : parseAstTree toks' = .ok (some t) s) :
    ParamsOk t := by
  refine paramsOk_of ((parsed_written h3).mono ?_)
  intro st hw p hp q hq
  rcases hw with rfl | ⟨pre, pos, ts, rfl, hw⟩
  · cases hp
  · obtain ⟨h4, h5⟩ := written_params hw p hp q hq
    intro s1 s2 str hs
    unfold tokName at hs
    cases e : tokenToString q.name with
    | none => rw [e] at hs; cases hs
    | some str' =>
      rw [e] at hs
      have : str' = str := by
        simp only [Chk.ofOption, pure, SRes.ok.injEq] at hs
        exact hs.1
      subst this
      exact new_names h1 h2 (List.mem_append_right _ h4) h5 e

end Skull.SemHeap
