import Verif.Proofs.Paths
/-
C19 and C21: names derived from the source path.

A path and an extension are C strings, so they have no NUL and together they fit the address space.
-/
namespace Skull
open Spec

/-- C19: the output path is directory, dot, base name, dot, extension, and every access is inside the buffer. -/
theorem C19_output_path (dir base ext : List Char) (hd : IsDir dir) (hb : IsBase base)
    (hn : NulFree (dir ++ base)) (he : NulFree ext) (hs : (dir ++ base).length + ext.length + 3 < 2 ^ 64) :
    genFilename (dir ++ base) ext = some (dir ++ ['.'] ++ base ++ ['.'] ++ ext) := by
  rw [genFilename_eq dir base ext hd hb hn he hs]
  simp

/-- C19: every path splits into a directory part and a base name, so the formula covers every path. -/
theorem C19_every_path (path ext : List Char) (hn : NulFree path) (he : NulFree ext)
    (hs : path.length + ext.length + 3 < 2 ^ 64) :
    ∃ dir base, path = dir ++ base ∧ IsDir dir ∧ IsBase base ∧
      genFilename path ext = some (dir ++ ['.'] ++ base ++ ['.'] ++ ext) := by
  obtain ⟨d, b, rfl, hd, hb⟩ := path_split path
  exact ⟨d, b, rfl, hd, hb, C19_output_path d b ext hd hb hn he hs⟩

/-- C19: the file a backend writes is the derived path unless -o or -E chooses another. -/
theorem C19_new_filename (path ext : List Char) (out : List Char) (preprocess c : Bool) :
    getNewFilename none false c path ext = genFilename path ext ∧
    getNewFilename none true c path ext = some ['-'] ∧
    getNewFilename (some out) false false path ext = genFilename path ext ∧
    (preprocess || c → getNewFilename (some out) preprocess c path ext = some out) := by
  refine ⟨rfl, rfl, rfl, fun h => ?_⟩
  simp [getNewFilename, h]

example : genFilename "a/b/x.sk".toList "ll".toList = some "a/b/.x.sk.ll".toList := by decide
example : genFilename "x.sk".toList "c".toList = some ".x.sk.c".toList := by decide

/-- C21: the linkage name of an exported symbol is module, dot, name; every access is inside the buffer. -/
theorem C21_linkage_name (dir m name : List Char) (hd : IsDir dir) (hb : IsBase m) (hn : NulFree m)
    (he : NulFree name) (hs : m.length + name.length + 3 < 2 ^ 64) :
    mangleName (dir ++ (m ++ ".sk".toList)) name = some (m ++ ['.'] ++ name) := by
  rw [mangleName_eq dir m name hd hb hn he hs]
  simp

/-- C21: the entry function is dot, module; every access is inside the buffer. -/
theorem C21_entry_name (dir m : List Char) (hd : IsDir dir) (hb : IsBase m) (hn : NulFree m)
    (hs : m.length + 3 < 2 ^ 64) :
    createMainFuncName (some (dir ++ (m ++ ".sk".toList))) = some (['.'] ++ m) :=
  createMain_eq dir m hd hb hn hs

/-- C21: without a file name (no path, or one that ends in a slash) the entry function is a dot; every access is inside the
buffer. -/
theorem C21_entry_name_empty (dir : List Char) (hd : IsDir dir) :
    createMainFuncName none = some ['.'] ∧ createMainFuncName (some dir) = some ['.'] := by
  refine ⟨by decide, ?_⟩
  have h : afterSlash dir = [] := by
    have := afterSlash_split dir [] hd (by simp [IsBase])
    simpa using this
  unfold createMainFuncName
  simp only [Option.getD_some, h]
  decide

/-- C21: distinct symbol names get distinct linkage names, and none is the entry function's name. -/
theorem C21_distinct (dir m n₁ n₂ : List Char) (hd : IsDir dir) (hb : IsBase m) (hn : NulFree m)
    (h1 : NulFree n₁) (h2 : NulFree n₂) (hs1 : m.length + n₁.length + 3 < 2 ^ 64) (hs2 : m.length + n₂.length + 3 < 2 ^ 64)
    (hne : n₁ ≠ n₂) :
    mangleName (dir ++ (m ++ ".sk".toList)) n₁ ≠ mangleName (dir ++ (m ++ ".sk".toList)) n₂ ∧
    (n₁ ≠ [] → mangleName (dir ++ (m ++ ".sk".toList)) n₁ ≠ createMainFuncName (some (dir ++ (m ++ ".sk".toList)))) := by
  rw [C21_linkage_name dir m n₁ hd hb hn h1 hs1, C21_linkage_name dir m n₂ hd hb hn h2 hs2,
    C21_entry_name dir m hd hb hn (by omega)]
  refine ⟨fun h => hne ?_, fun hne2 h => hne2 ?_⟩
  · simpa using h
  · have := congrArg (Option.map List.length) h
    simpa using this

/-- C21: distinct modules have distinct entry functions. -/
theorem C21_distinct_modules (d₁ d₂ m₁ m₂ : List Char) (hd1 : IsDir d₁) (hd2 : IsDir d₂) (hb1 : IsBase m₁) (hb2 : IsBase m₂)
    (hn1 : NulFree m₁) (hn2 : NulFree m₂) (hs1 : m₁.length + 3 < 2 ^ 64) (hs2 : m₂.length + 3 < 2 ^ 64) (hne : m₁ ≠ m₂) :
    createMainFuncName (some (d₁ ++ (m₁ ++ ".sk".toList))) ≠ createMainFuncName (some (d₂ ++ (m₂ ++ ".sk".toList))) := by
  rw [C21_entry_name d₁ m₁ hd1 hb1 hn1 hs1, C21_entry_name d₂ m₂ hd2 hb2 hn2 hs2]
  simpa using hne

/-- A base name that does not end in .sk is not covered: one of length one is written past its buffer. -/
example : createMainFuncName (some "dir.sk/a".toList) = none ∧ mangleName "dir.sk/a".toList "f".toList = none := by
  decide

example : mangleName "lib/util.sk".toList "add".toList = some "util.add".toList := by decide
example : createMainFuncName (some "lib/util.sk".toList) = some ".util".toList := by decide

end Skull
