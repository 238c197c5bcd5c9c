import Verif.Model.Paths
import Verif.Spec.PathSpec
/-
Buffers written by `strncpy` and the names read back from them.
-/
namespace Skull
open Spec

theorem lastSlash_base (b : List Char) (h : '/' ∉ b) : lastSlash b = none := by
  induction b with
  | nil => rfl
  | cons c b ih =>
    simp only [List.mem_cons, not_or] at h
    simp only [lastSlash, ih h.2]
    rw [if_neg (fun e => h.1 e.symm)]

theorem lastSlash_dir (d b : List Char) (h : '/' ∉ b) : lastSlash (d ++ '/' :: b) = some d.length := by
  induction d with
  | nil => simp [lastSlash, lastSlash_base b h]
  | cons c d ih => simp [lastSlash, ih]

theorem afterSlash_split (d b : List Char) (hd : IsDir d) (hb : IsBase b) : afterSlash (d ++ b) = b := by
  rcases hd with rfl | ⟨d', rfl⟩
  · simp [afterSlash, lastSlash_base b hb]
  · simp only [List.append_assoc, List.singleton_append, afterSlash, lastSlash_dir d' b hb]
    simp [List.drop_append]

/-- Every path is a directory part and a base name. -/
theorem path_split (p : List Char) : ∃ d b, p = d ++ b ∧ IsDir d ∧ IsBase b := by
  induction p with
  | nil => exact ⟨[], [], rfl, Or.inl rfl, by simp [IsBase]⟩
  | cons c p ih =>
    obtain ⟨d, b, rfl, hd, hb⟩ := ih
    rcases hd with rfl | ⟨d', rfl⟩
    · by_cases hc : c = '/'
      · subst hc; exact ⟨['/'], b, rfl, Or.inr ⟨[], rfl⟩, hb⟩
      · refine ⟨[], c :: b, rfl, Or.inl rfl, ?_⟩
        simp only [IsBase, List.mem_cons, not_or]
        exact ⟨fun e => hc e.symm, hb⟩
    · exact ⟨c :: (d' ++ ['/']), b, rfl, Or.inr ⟨c :: d', rfl⟩, hb⟩

theorem readStr_eq (s : List Char) (h : NulFree s) (rest : Buf) :
    readStr (s.map some ++ some '\x00' :: rest) = some s := by
  induction s with
  | nil => simp [readStr]
  | cons c s ih =>
    simp only [NulFree, List.mem_cons, not_or] at h
    simp only [List.map_cons, List.cons_append, readStr]
    rw [if_neg (fun e => h.1 e.symm), ih h.2]
    rfl

theorem putByte_mid (pre post : Buf) (o : Option Char) (c : Char) (i : Nat) (h : pre.length = i) :
    putByte (pre ++ o :: post) i c = some (pre ++ some c :: post) := by
  subst h
  simp [putByte]

theorem strncpyTo_mid (pre mid post : Buf) (src : List Char) (n off : Nat) (h : mid.length = n) (ho : pre.length = off) :
    strncpyTo (pre ++ (mid ++ post)) off src n =
      some (pre ++ ((src.take n ++ List.replicate (n - src.length) '\x00').map some ++ post)) := by
  subst h ho
  unfold strncpyTo
  rw [if_pos (by simp)]
  simp [List.drop_append]

theorem malloc_split (a b : Nat) : malloc (a + b) = malloc a ++ malloc b := by
  simp [malloc, List.replicate_append_replicate]

theorem malloc_length (n : Nat) : (malloc n).length = n := by simp [malloc]

theorem addSize_eq {a b : Nat} (h : a + b < 2 ^ 64) : addSize a b = a + b := Nat.mod_eq_of_lt h

theorem subSize_eq {a b : Nat} (h : a < 2 ^ 64) (h2 : b ≤ a) : subSize a b = a - b := by
  unfold subSize
  omega

theorem genFilename_eq (d b ext : List Char) (hd : IsDir d) (hb : IsBase b)
    (hn : NulFree (d ++ b)) (he : NulFree ext) (hs : (d ++ b).length + ext.length + 3 < 2 ^ 64) :
    genFilename (d ++ b) ext = some (d ++ '.' :: b ++ '.' :: ext) := by
  have a1 : addSize (addSize (d ++ b).length 3) ext.length = (d ++ b).length + 3 + ext.length := by
    rw [addSize_eq (a := (d ++ b).length) (by omega), addSize_eq (by omega)]
  have a2 : addSize (d ++ b).length 1 = (d ++ b).length + 1 := addSize_eq (by omega)
  have a3 : addSize (d ++ b).length 2 = (d ++ b).length + 2 := addSize_eq (by omega)
  have a4 : addSize ext.length 1 = ext.length + 1 := addSize_eq (by omega)
  unfold genFilename
  simp only [a1, a2, a3, a4]
  have key : genFilenameBase (malloc ((d ++ b).length + 3 + ext.length)) (d ++ b) (d ++ b).length =
      some ((d ++ '.' :: b).map some ++ some '\x00' :: malloc (ext.length + 1)) := by
    unfold genFilenameBase
    rcases hd with rfl | ⟨d', rfl⟩
    · rw [List.nil_append, lastSlash_base b hb]
      simp only [List.nil_append] at a2 ⊢
      have e : malloc (b.length + 3 + ext.length) = [] ++ none :: malloc (b.length + 1 + (ext.length + 1)) := by
        rw [show b.length + 3 + ext.length = 1 + (b.length + 1 + (ext.length + 1)) by omega, malloc_split]; rfl
      rw [e, putByte_mid _ _ _ _ _ (by rfl), Option.bind_some, a2, malloc_split,
        show ([] ++ some '.' :: (malloc (b.length + 1) ++ malloc (ext.length + 1)) : Buf)
          = [some '.'] ++ (malloc (b.length + 1) ++ malloc (ext.length + 1)) from rfl,
        strncpyTo_mid _ _ _ _ _ _ (malloc_length _) (by rfl), List.take_of_length_le (by omega),
        show b.length + 1 - b.length = 1 by omega]
      simp
    · rw [show (d' ++ ['/']) ++ b = d' ++ '/' :: b by simp, lastSlash_dir d' b hb]
      simp only []
      have a5 : subSize (d' ++ '/' :: b).length d'.length = b.length + 1 := by
        rw [subSize_eq]
        · simp
        · simp at hs ⊢; omega
        · simp
      have a2' : addSize (d' ++ '/' :: b).length 1 = (d' ++ '/' :: b).length + 1 := by simpa using a2
      rw [a5, a2']
      have e : malloc ((d' ++ '/' :: b).length + 3 + ext.length) =
          [] ++ (malloc ((d' ++ '/' :: b).length + 1) ++ malloc (ext.length + 2)) := by
        rw [List.nil_append, ← malloc_split]; congr 1; omega
      rw [e, strncpyTo_mid _ _ _ _ _ _ (malloc_length _) (by rfl), Option.bind_some, List.take_of_length_le (by omega),
        show (d' ++ '/' :: b).length + 1 - (d' ++ '/' :: b).length = 1 by omega]
      -- the byte after the slash
      have hh : ∃ o post, ([] ++ ((d' ++ '/' :: b ++ List.replicate 1 '\x00').map some ++ malloc (ext.length + 2)) : Buf)
          = (d' ++ ['/']).map some ++ o :: (post ++ malloc (ext.length + 1)) ∧ post.length = b.length + 1 := by
        cases b with
        | nil => exact ⟨some '\x00', malloc 1, by simp [← malloc_split]; congr 1; omega, by simp [malloc]⟩
        | cons c b =>
          refine ⟨some c, b.map some ++ [some '\x00'] ++ malloc 1, ?_, by simp [malloc]⟩
          simp [← malloc_split]
          congr 1; omega
      obtain ⟨o, post, h1, h2⟩ := hh
      rw [h1, putByte_mid _ _ _ _ _ (by simp), Option.bind_some,
        show ((d' ++ ['/']).map some ++ some '.' :: (post ++ malloc (ext.length + 1)) : Buf)
          = ((d' ++ ['/', '.']).map some) ++ (post ++ malloc (ext.length + 1)) by simp,
        strncpyTo_mid _ _ _ _ _ _ h2 (by simp),
        show (d' ++ '/' :: b).drop (d'.length + 1) = b by simp [List.drop_append],
        List.take_of_length_le (by omega), show b.length + 1 - b.length = 1 by omega]
      simp
  rw [key, Option.bind_some, putByte_mid _ _ _ _ _ (by simp; omega), Option.bind_some,
    show ((d ++ '.' :: b).map some ++ some '.' :: malloc (ext.length + 1) : Buf)
      = ((d ++ '.' :: b ++ ['.']).map some) ++ (malloc (ext.length + 1) ++ []) by simp,
    strncpyTo_mid _ _ _ _ _ _ (malloc_length _) (by simp; omega), Option.bind_some,
    List.take_of_length_le (by omega), show ext.length + 1 - ext.length = 1 by omega,
    show ((d ++ '.' :: b ++ ['.']).map some ++ ((ext ++ List.replicate 1 '\x00').map some ++ []) : Buf)
      = (d ++ '.' :: b ++ '.' :: ext).map some ++ some '\x00' :: [] by simp]
  apply readStr_eq
  simp only [NulFree, List.mem_append, List.mem_cons] at *
  simp only [not_or] at *
  exact ⟨⟨hn.1, by decide, hn.2⟩, by decide, he⟩

theorem mangleName_eq (d m name : List Char) (hd : IsDir d) (hb : IsBase m) (hn : NulFree m) (he : NulFree name)
    (hs : m.length + name.length + 3 < 2 ^ 64) :
    mangleName (d ++ (m ++ ".sk".toList)) name = some (m ++ '.' :: name) := by
  have hb' : IsBase (m ++ ".sk".toList) := by
    simp only [IsBase, List.mem_append, not_or]; exact ⟨hb, by decide⟩
  unfold mangleName
  rw [afterSlash_split d _ hd hb']
  have l : (m ++ ".sk".toList).length = m.length + 3 := by simp
  simp only [l]
  have a0 : subSize (m.length + 3) 2 = m.length + 1 := subSize_eq (by omega) (by omega)
  have a1 : addSize (m.length + 1) name.length = m.length + 1 + name.length := addSize_eq (by omega)
  have a2 : addSize (m.length + 1 + name.length) 2 = m.length + 1 + name.length + 2 := addSize_eq (by omega)
  simp only [a0, a1, a2]
  have e1 : malloc (m.length + 1 + name.length + 2) =
      [] ++ (malloc (m.length + 1) ++ malloc (name.length + 2)) := by
    rw [List.nil_append, ← malloc_split]
    exact congrArg malloc (by omega)
  have t1 : (m ++ ".sk".toList).take (m.length + 1) = m ++ ['.'] := by
    rw [List.take_append, List.take_of_length_le (by omega), show m.length + 1 - m.length = 1 by omega]; rfl
  rw [e1, strncpyTo_mid _ _ _ _ _ _ (malloc_length _) (by rfl), Option.bind_some, t1,
    show m.length + 1 - (m ++ ".sk".toList).length = 0 by omega]
  -- the byte at `module_len`
  have e2 : ([] ++ ((m ++ ['.'] ++ List.replicate 0 '\x00').map some ++ malloc (name.length + 2)) : Buf)
      = (m ++ ['.']).map some ++ none :: malloc (name.length + 1) := by
    rw [show name.length + 2 = 1 + (name.length + 1) by omega, malloc_split]
    simp [malloc]
  rw [e2, putByte_mid _ _ _ _ _ (by simp), Option.bind_some]
  have e3 : ∃ mid o post, ((m ++ ['.']).map some ++ some '.' :: malloc (name.length + 1) : Buf)
      = (m ++ ['.']).map some ++ (mid ++ o :: post) ∧ mid.length = name.length := by
    cases name with
    | nil => exact ⟨[], some '.', malloc 1, rfl, rfl⟩
    | cons c name =>
      refine ⟨some '.' :: malloc name.length, none, malloc 1, ?_, by simp [malloc]⟩
      rw [show (c :: name).length + 1 = name.length + (1 + 1) by simp, malloc_split, malloc_split]
      simp [malloc]
  obtain ⟨mid, o, post, h1, h2⟩ := e3
  rw [h1, strncpyTo_mid _ _ _ _ _ _ h2 (by simp), Option.bind_some, List.take_of_length_le (by omega),
    show name.length - name.length = 0 by omega,
    show ((m ++ ['.']).map some ++ ((name ++ List.replicate 0 '\x00').map some ++ o :: post) : Buf)
      = (m ++ '.' :: name).map some ++ o :: post by simp,
    putByte_mid _ _ _ _ _ (by simp; omega), Option.bind_some]
  apply readStr_eq
  simp only [NulFree, List.mem_append, List.mem_cons, not_or] at *
  exact ⟨hn, by decide, he⟩

theorem createMain_eq (d m : List Char) (hd : IsDir d) (hb : IsBase m) (hn : NulFree m)
    (hs : m.length + 3 < 2 ^ 64) :
    createMainFuncName (some (d ++ (m ++ ".sk".toList))) = some ('.' :: m) := by
  have hb' : IsBase (m ++ ".sk".toList) := by
    simp only [IsBase, List.mem_append, not_or]; exact ⟨hb, by decide⟩
  unfold createMainFuncName
  simp only [Option.getD_some]
  rw [afterSlash_split d _ hd hb']
  have l : (m ++ ".sk".toList).length = m.length + 3 := by simp
  have l2 : ¬ m.length + 3 = 0 := by omega
  have a0 : subSize (m.length + 3) 1 = m.length + 2 := subSize_eq (by omega) (by omega)
  have a1 : subSize (m.length + 2) 1 = m.length + 1 := subSize_eq (by omega) (by omega)
  simp only [l, l2, if_false, a0, a1]
  have e1 : malloc (m.length + 2) = [] ++ none :: malloc (m.length + 1) := by
    rw [show m.length + 2 = 1 + (m.length + 1) by omega, malloc_split]; rfl
  have t1 : (m ++ ".sk".toList).take (m.length + 1) = m ++ ['.'] := by
    rw [List.take_append, List.take_of_length_le (by omega), show m.length + 1 - m.length = 1 by omega]; rfl
  rw [e1, putByte_mid _ _ _ _ _ (by rfl), Option.bind_some,
    show ([] ++ some '.' :: malloc (m.length + 1) : Buf) = [some '.'] ++ (malloc (m.length + 1) ++ []) by simp,
    strncpyTo_mid _ _ _ _ _ _ (malloc_length _) (by rfl), Option.bind_some, t1,
    show m.length + 1 - (m ++ ".sk".toList).length = 0 by omega,
    show ([some '.'] ++ ((m ++ ['.'] ++ List.replicate 0 '\x00').map some ++ []) : Buf)
      = ('.' :: m).map some ++ some '.' :: [] by simp,
    putByte_mid _ _ _ _ _ (by simp), Option.bind_some]
  apply readStr_eq
  simp only [NulFree, List.mem_cons, not_or] at *
  exact ⟨by decide, hn⟩

end Skull
