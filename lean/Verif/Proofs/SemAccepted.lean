import Verif.Proofs.SemProps
import Verif.Proofs.SemSound
import Verif.Spec.Accepted
import Verif.Spec.Render
/-
The statements of accepted programs are well formed; concrete programs.
-/
namespace Skull
open Spec

theorem world_models (cfg : Cfg) (returns : Prop) : Models cfg (cfg.world returns) := ⟨rfl, fun _ => Iff.rfl, id⟩

theorem main_fits : CtxFits .main [] := ⟨fun h => absurd h (Nat.lt_irrefl 0), (fun _ h => by cases h), fun _ => rfl⟩

/-- Every statement that is reached in an accepted program is well formed. -/
theorem accepted_at {cfg : Cfg} {t : Tree} (ha : Accepted cfg t) (hc : Counted t) (hb : CallsBare t) {returns : Prop} {ext : Bool}
    (hp : returns → Plain ext false t) {c E before stmt tok tokEnd child next}
    (h : At (cfg.world False) t c E before (.node stmt tok tokEnd child next)) :
    ∃ E', StmtOk (cfg.world returns) c E before stmt tok tokEnd child next E' := by
  obtain ⟨a, s, ha⟩ := ha
  obtain ⟨E₁, h1⟩ := semantic_sound (world_models cfg returns) ha hc hp
  obtain ⟨⟨E₂, h2⟩, _⟩ := reach_stmts (W := cfg.world returns) (W' := cfg.world False) rfl h hb h1
  cases h2 with
  | node _ h2 _ => exact ⟨_, h2⟩

/-- Every statement of an accepted program is reached. -/
theorem accepted_occ {cfg : Cfg} {t : Tree} (ha : Accepted cfg t) (hc : Counted t) (hb : CallsBare t)
    {up before stmt tok tokEnd child next} (h : Occ [] [] t up before (.node stmt tok tokEnd child next)) :
    ∃ c E E', At (cfg.world False) t c E before (.node stmt tok tokEnd child next) ∧ CtxFits c up ∧
      StmtOk (cfg.world False) c E before stmt tok tokEnd child next E' := by
  obtain ⟨a, s, ha'⟩ := ha
  obtain ⟨E₁, h1⟩ := semantic_sound (world_models cfg False) ha' hc (ext := false) False.elim
  obtain ⟨c, E, h2, h3⟩ := occ_reach h hb h1 main_fits (by simp)
  obtain ⟨E', h4⟩ := accepted_at ⟨a, s, ha'⟩ hc hb (returns := False) (ext := false) False.elim h2
  exact ⟨c, E, E', h2, h3, h4⟩

/- ### Concrete programs -/

/-- The tree of a source text. -/
def parsed (src : String) : Tree :=
  match parseAstTree (lexed src) with
  | .ok (some t) _ => t
  | _ => .nil

/-- The configuration of the examples. -/
def sampleCfg : Cfg := { filename := "a.sk".toList }

/-- Whether a source text parses and is accepted. -/
def acceptsSrc (src : String) : Bool :=
  match parseAstTree (lexed src) with
  | .ok (some t) _ => match semantic sampleCfg t with | .ok .. => true | _ => false
  | _ => false

theorem accepted_src {src : String} (h : acceptsSrc src = true) : Accepted sampleCfg (parsed src) := by
  unfold acceptsSrc at h
  unfold parsed Accepted
  split at h
  · rename_i t s ht
    split at h
    · rename_i a s' hs
      exact ⟨a, s', hs⟩
    · cases h
  · cases h

/-- The diagnostics of a source text that parses and is refused. -/
def refusals (src : String) : Option (List Code) :=
  match parseAstTree (lexed src) with
  | .ok (some t) _ => match semantic sampleCfg t with | .fail s => some (s.diags.map (·.code)) | _ => none
  | _ => none

theorem parsed_src {src : String} (h : acceptsSrc src = true) : Parsed (parsed src) := by
  unfold acceptsSrc at h
  unfold parsed Parsed
  split at h
  · rename_i t s ht
    exact ⟨_, _, ht⟩
  · cases h

mutual
/-- Whether every call has as many arguments as the parser counted. -/
def exprCounted : Expr → Bool
  | .missing | .ident _ | .const _ => true
  | .call _ args num => argsCounted args num
  | .un _ e => exprCounted e
  | .bin _ l r => exprCounted l && exprCounted r
def argsCounted : Args → Nat → Bool
  | .nil, num => num = 0
  | .cons _ e next, 0 => false
  | .cons _ e next, n + 1 => exprCounted e && argsCounted next n
end

mutual
theorem exprCounted_iff : ∀ e, exprCounted e = true ↔ Expr.Counted e
  | .missing => by simp [exprCounted, Expr.Counted]
  | .ident _ => by simp [exprCounted, Expr.Counted]
  | .const _ => by simp [exprCounted, Expr.Counted]
  | .call _ args num => by simp [exprCounted, Expr.Counted, argsCounted_iff args num]
  | .un _ e => by simp [exprCounted, Expr.Counted, exprCounted_iff e]
  | .bin _ l r => by simp [exprCounted, Expr.Counted, exprCounted_iff l, exprCounted_iff r]
theorem argsCounted_iff : ∀ args num, argsCounted args num = true ↔ Args.Counted args num
  | .nil, num => by simp [argsCounted, Args.Counted]
  | .cons _ e next, 0 => by simp [argsCounted, Args.Counted]
  | .cons _ e next, n + 1 => by simp [argsCounted, Args.Counted, exprCounted_iff e, argsCounted_iff next n]
end

/-- Whether every call and function in a program has fewer than 65536 arguments or parameters. -/
def treeCounted : Tree → Bool
  | .nil => true
  | .node stmt _ _ child next =>
    (match stmt with
      | .varDef _ _ _ _ e | .varAssign e | .expr e | .ret e | .ifs e | .elifs e | .whiles e => exprCounted e
      | .funcProto p => p.numParams = p.params.length
      | _ => true) && treeCounted child && treeCounted next

theorem treeCounted_iff (t : Tree) : treeCounted t = true ↔ Counted t := by
  induction t with
  | nil => simp [treeCounted, Counted]
  | node stmt _ _ child next h1 h2 =>
    simp only [treeCounted, Counted, Bool.and_eq_true, h1, h2, and_assoc]
    cases stmt <;> simp [StmtCounted, exprCounted_iff]

/-- A function, then a call of it with a block behind: the first statement in that block is reached with the function in force. -/
def callShape : Tree → Option (Stmt × List Token × List Token × Tree × Tree)
  | .node (.funcProto p) _ _ _ (.node (.expr (.call ..)) _ _ (.node stmt tok tokEnd child next) _) =>
    if tokenToString p.name = some ['f'] then some (stmt, tok, tokEnd, child, next) else none
  | _ => none

theorem callBlock {src : String} {r} (ha : acceptsSrc src = true) (hc : treeCounted (parsed src) = true)
    (hs : callShape (parsed src) = some r) :
    ∃ c E n args num, At (sampleCfg.world False) (parsed src) c E [] (.node r.1 r.2.1 r.2.2.1 r.2.2.2.1 r.2.2.2.2) ∧
      Occ [] [] (parsed src) [.expr (.call n args num)] [] (.node r.1 r.2.1 r.2.2.1 r.2.2.2.1 r.2.2.2.2) ∧ E.vis = [(['f'], 1)] := by
  obtain ⟨a, s, h⟩ := accepted_src ha
  obtain ⟨E₂, h⟩ := semantic_sound (world_models sampleCfg False) h ((treeCounted_iff _).1 hc) (ext := false) False.elim
  generalize parsed src = t at *
  unfold callShape at hs
  split at hs
  · split at hs
    · rename_i h1
      cases hs
      cases h with
      | node _ h2 h3 =>
        have hv : ∀ {c E before p tok tokEnd child next E'},
            StmtOk (sampleCfg.world False) c E before (.funcProto p) tok tokEnd child next E' →
            tokenToString p.name = some ['f'] → E'.vis = (['f'], E.decls.length) :: E.vis := by
          intro c E before p tok tokEnd child next E' h h'
          cases h with
          | func _ _ h => cases text_det h h'; rfl
        exact ⟨_, _, _, _, _, .next h2 (.body .call .here), .next (.child .here), hv h2 h1⟩
    · cases hs
  · cases hs

/-- A name that is not the one visible denotes nothing. -/
theorem no_decl {E : Env} (h : E.vis = [(['f'], 1)]) {c : Char} (hc : c ≠ 'f') (hd : c ≠ '.') : E.decl [c] = none := by
  have : path [c] = [[c]] := by simp [path, hd]
  unfold Env.decl Env.resolve
  rw [this, h]
  have hb : (c == 'f') = false := by simpa using hc
  simp [follow, List.lookup, hb]

end Skull
