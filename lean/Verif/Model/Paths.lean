import Verif.Model.Bytes
/-
Names derived from the source path: output files, linkage names, the entry function.
-/
namespace Skull

/-- io.c:85-99: place the dot in front of the base name. -/
def genFilenameBase (buf : Buf) (filename : List Char) (len : Nat) : Option Buf :=
  match lastSlash filename with
  | none => (putByte buf 0 '.').bind fun buf => strncpyTo buf 1 filename (addSize len 1)
  | some offset =>
    (strncpyTo buf 0 filename (addSize len 1)).bind fun buf =>
    (putByte buf (offset + 1) '.').bind fun buf =>
    strncpyTo buf (offset + 2) (filename.drop (offset + 1)) (subSize len offset)

/-- io.c:79-104 `gen_filename`. -/
def genFilename (filename ext : List Char) : Option (List Char) :=
  let len := filename.length
  let extLen := ext.length
  let buf := malloc (addSize (addSize len 3) extLen)
  (genFilenameBase buf filename len).bind fun buf =>
  (putByte buf (addSize len 1) '.').bind fun buf =>
  (strncpyTo buf (addSize len 2) ext (addSize extLen 1)).bind fun buf =>
  readStr buf

/-- codegen/shared.c:9-20 `get_new_filename`; the first three arguments are fields of BUILD_DATA. -/
def getNewFilename (outFile : Option (List Char)) (preprocess cBackend : Bool) (filename ext : List Char) :
    Option (List Char) :=
  match outFile with
  | some out => if preprocess || cBackend then some out else if preprocess then some ['-'] else genFilename filename ext
  | none => if preprocess then some ['-'] else genFilename filename ext

/-- The pointer `strrchr(path, '/') + 1`, or `path` when there is no slash (mangle.c:10-12, abi.c:13-17). -/
def afterSlash (path : List Char) : List Char :=
  match lastSlash path with
  | none => path
  | some i => path.drop (i + 1)

/-- mangle.c:9-25 `mangle_name`; `path` is BUILD_DATA.filename. -/
def mangleName (path name : List Char) : Option (List Char) :=
  let moduleName := afterSlash path
  let moduleLen := subSize moduleName.length 2
  let nameLen := name.length
  let buf := malloc (addSize (addSize moduleLen nameLen) 2)
  (strncpyTo buf 0 moduleName moduleLen).bind fun buf =>
  (putByte buf moduleLen '.').bind fun buf =>
  (strncpyTo buf moduleLen name nameLen).bind fun buf =>
  (putByte buf (addSize moduleLen nameLen) '\x00').bind fun buf =>
  readStr buf

/-- abi.c:10-27 `create_main_func_name`; `path` may be NULL. -/
def createMainFuncName (path : Option (List Char)) : Option (List Char) :=
  let filename := afterSlash (path.getD [])
  let len := if filename.length = 0 then 2 else subSize filename.length 1
  let buf := malloc len
  (putByte buf 0 '.').bind fun buf =>
  (strncpyTo buf 1 filename (subSize len 1)).bind fun buf =>
  (putByte buf (subSize len 1) '\x00').bind fun buf =>
  readStr buf

end Skull
