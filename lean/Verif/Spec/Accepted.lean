import Verif.Model.Semantic
import Verif.Spec.Program
/-
Programs that the check accepts.
-/
namespace Skull
open Spec

/-- The check accepts a program. -/
def Accepted (cfg : Cfg) (t : Tree) : Prop := ∃ a s, semantic cfg t = .ok a s

/-- The world of a configuration. -/
def Cfg.world (cfg : Cfg) (returns : Prop) : World where
  strtod := cfg.strtod
  canImport m :=
    cfg.openDir (currentFileDir cfg.filename) = true ∧ cfg.openFile (currentFileDir cfg.filename) (m ++ ".sk".toList) = true
  returns := returns
  strict := False

/-- The parser gives this tree for some tokens. -/
def Parsed (t : Tree) : Prop := ∃ toks s, parseAstTree toks = .ok (some t) s

/-- Exported names of the statement have a linkage name. -/
def StmtLinked (cfg : Cfg) : Stmt → Prop
  | .varDef (n :: _) _ _ isExported _ => isExported = true → ∀ x, Text n x → (mangleName cfg.filename x).isSome = true
  | .funcProto p => p.isExport = true → ∀ x, Text p.name x → (mangleName cfg.filename x).isSome = true
  | _ => True

/-- All exported names have a linkage name. -/
def Linked (cfg : Cfg) : Tree → Prop
  | .nil => True
  | .node stmt _ _ child next => StmtLinked cfg stmt ∧ Linked cfg child ∧ Linked cfg next

/-- The world of a configuration, with every rule asked for. -/
def Cfg.strictWorld (cfg : Cfg) : World := { cfg.world True with strict := True }

end Skull
