import Verif.Model.Token
import Verif.Model.Str
/-
skull/parse/classify.c: giving word tokens their type.

`none` is undefined behaviour (a read before the start of a string, or through a null pointer).
-/
namespace Skull

/-- token.c:310-319 `token_to_string` (with `c32sncpy`, str.c:35-45): at most `len` characters from `begin`. -/
def tokenToString (t : Token) : Option (List Char) :=
  match t.begin with
  | none => none                       -- c32sncpy reads *NULL
  | some b => some (b.take t.len)

/-- token.c:337-342 `token_cmp`. -/
def tokenCmp (str : List Char) (t : Token) : Option Bool :=
  if str.length = t.len then
    match t.begin with
    | none => none
    | some b => some (c32sncmp str b t.len)
  else some false

/-- classify.c:192-198, the loop of `EXHAUST_STR_INT`.  `was` is `was_last_underscore`, `prev` is `str[-1]` (`none` when `str` is
the start of the string).  The result is `none` when the macro returns false in the loop, else the final `str[-1]`. -/
def intLoop (cond : Char → Bool) : List Char → Bool → Option Char → Option (Option Char)
  | [], _, prev => some prev
  | c :: s, was, _ =>
    if was && c = '_' then none
    else if !cond c && c ≠ '_' then none
    else intLoop cond s (c = '_') (some c)

/-- classify.c:190-199 `EXHAUST_STR_INT`: whether the macro falls through. -/
def exhaustStrInt (cond : Char → Bool) (s : List Char) (prev : Option Char) : Option Bool :=
  if s.head? = some '_' then some false
  else match intLoop cond s false prev with
    | none => some false
    | some none => none                -- str[-1] before the string
    | some (some c) => some (c ≠ '_')

/-- `if (*str == '-') str++` (classify.c:233, 248), with `str[-1]` after it. -/
def skipMinus (s : List Char) : List Char × Option Char :=
  match s with
  | c :: t => if c = '-' then (t, some c) else (s, none)
  | [] => (s, none)

/-- classify.c:233-238, the end of `is_constant_integer_str`: decimal literals. -/
def isDecimalInteger (s : List Char) : Option Bool :=
  if (skipMinus s).1 = [] then some false else exhaustStrInt c32isdigit (skipMinus s).1 (skipMinus s).2

/-- classify.c:213-239 `is_constant_integer_str`. -/
def isConstantInteger (s : List Char) : Option Bool :=
  match s with
  | c :: m :: d :: t =>
    if c = '0' && !c32isdigit m then
      if m = 'x' then exhaustStrInt c32isxdigit (d :: t) (some m)
      else if m = 'b' then exhaustStrInt (fun c => c = '0' || c = '1') (d :: t) (some m)
      else if m = 'o' then exhaustStrInt (fun c => '0' ≤ c && c ≤ '7') (d :: t) (some m)
      else some false
    else isDecimalInteger s
  | _ => isDecimalInteger s

/-- classify.c:252-262, the loop over the whole part of a float.  Gives `none` when it returns false, else the
rest of the string (from the dot or the end) and `str[-1]`. -/
def floatLoop : List Char → Bool → Option Char → Option (List Char × Option Char)
  | [], _, prev => some ([], prev)
  | c :: s, was, prev =>
    if c = '.' then some (c :: s, prev)
    else if (was && c = '_') || (!c32isdigit c && c ≠ '_') then none
    else floatLoop s (c = '_') (some c)

/-- classify.c:201-205 `EXHAUST_STR`. -/
def exhaustStr (cond : Char → Bool) : List Char → Bool
  | [] => true
  | c :: s => if !cond c then false else exhaustStr cond s

/-- classify.c:250-268, the end of `is_constant_float_str`; `prev` is `str[-1]`. -/
def isDecimalFloat (s : List Char) (prev : Option Char) : Option Bool :=
  if s.head? = some '.' || s.head? = some '_' then some false
  else match floatLoop s false prev with
    | none => some false
    | some (_, none) => none                                    -- 263: str[-1] before the string
    | some (rest, some p) =>
      if p = '_' then some false
      else match rest with
        | _ :: d :: t => some (exhaustStr c32isdigit (d :: t))
        | _ => some false

/-- classify.c:246-269 `is_constant_float_str`. -/
def isConstantFloat (s : List Char) : Option Bool :=
  if c32scmp "NaN".toList s then some true
  else if c32scmp "Infinity".toList (skipMinus s).1 then some true
  else isDecimalFloat (skipMinus s).1 (skipMinus s).2

/-- classify.c:277-279 `is_constant_bool_str`. -/
def isConstantBool (s : List Char) : Bool := c32scmp "true".toList s || c32scmp "false".toList s

/-- classify.c:287-297 `is_constant_rune_str`. -/
def isConstantRune (s : List Char) : Bool :=
  if s.head? ≠ some '\'' || s.getLast? ≠ some '\'' then false     -- 290
  else if 4 ≤ s.length && s.length ≤ 12 then s[1]? = some '\\'
  else s.length = 3

/-- classify.c:304-310 `is_constant_str_str`. -/
def isConstantStr (s : List Char) : Bool :=
  s.length ≥ 2 && s.head? = some '"' && s.getLast? = some '"'

/-- classify.c:321-339, the loop of `is_valid_identifier_str`. -/
def identLoop : List Char → Bool
  | [] => true
  | c :: s =>
    if c = ':' then s = []
    else if c = '.' then (if s = [] then false else identLoop s)
    else if c ≠ '_' && !c32isalnum c then false
    else identLoop s

/-- classify.c:315-340 `is_valid_identifier_str`. -/
def isValidIdentifier : List Char → Bool
  | [] => false
  | c :: s => if c < 'A' || ('Z' < c && c < 'a') || 'z' < c then false else identLoop s

/-- classify.c:172-177, the table of `is_reserved_str`. -/
def reservedTable : List (List Char) :=
  ["mut".toList, "return".toList, "unreachable".toList, "if".toList, "elif".toList, "else".toList, "while".toList,
   "external".toList, "export".toList, "noop".toList, "break".toList, "continue".toList, "import".toList,
   "namespace".toList, "mod".toList, "not".toList, "is".toList, "isnt".toList, "and".toList, "or".toList, "xor".toList,
   "Infinity".toList, "NaN".toList, "true".toList, "false".toList]

/-- classify.c:171-188 `is_reserved_str`. -/
def isReservedStr (s : List Char) : Bool := reservedTable.any fun w => c32scmp w s

/-- semantic/types.c:220-235, the names in `TYPES_BUILTIN`. -/
def builtinTypeNames : List (List Char) :=
  ["Bool".toList, "Int".toList, "Float".toList, "Rune".toList, "Str".toList, "Void".toList]

/-- classify.c:159-166 `is_type_str` (with `find_builtin_type`, types.c:187-197).  The conversion to a multi-byte string is left
out: the argument is an identifier, whose characters are ASCII. -/
def isTypeStr (s : List Char) : Bool := builtinTypeNames.any fun w => s == w

/-- classify.c:63-75: one character operators. -/
def singleOper (c : Char) : Option TokType :=
  if c = '=' then some .operEqual
  else if c = '+' then some .operPlus
  else if c = '-' then some .operDash
  else if c = '*' then some .operStar
  else if c = '/' then some .operDiv
  else if c = '<' then some .operLessThan
  else if c = '>' then some .operGtrThan
  else if c = '^' then some .operPow
  else none

/-- classify.c:81-106: the words compared in order by `TOKEN_TRY_STR`. -/
def tryTable : List (List Char × TokType) :=
  [("mut".toList, .kwMut), ("return".toList, .kwReturn), ("unreachable".toList, .kwUnreachable), ("if".toList, .kwIf),
   ("elif".toList, .kwElif), ("else".toList, .kwElse), ("while".toList, .kwWhile), ("external".toList, .kwExternal),
   ("export".toList, .kwExport), ("noop".toList, .kwNoop), ("break".toList, .kwBreak), ("continue".toList, .kwContinue),
   ("import".toList, .kwImport), ("namespace".toList, .kwNamespace), ("mod".toList, .operMod),
   (":=".toList, .operAutoEqual), ("not".toList, .operNot), ("is".toList, .operIs), ("isnt".toList, .operIsnt),
   ("and".toList, .operAnd), ("or".toList, .operOr), ("xor".toList, .operXor), ("<=".toList, .operLessThanEq),
   (">=".toList, .operGtrThanEq), ("<<".toList, .operLshift), (">>".toList, .operRshift)]

/-- The chain of `TOKEN_TRY_STR` (classify.c:45-48, 81-106).  The outer `none` is undefined behaviour. -/
def tryWords : List (List Char × TokType) → Token → Option (Option TokType)
  | [], _ => some none
  | (w, ty) :: rest, t =>
    match tokenCmp w t with
    | none => none
    | some true => some (some ty)
    | some false => tryWords rest t

/-- classify.c:114-139: the identifier branch; `str` is the text of `t`. -/
def classifyIdentifier (t : Token) (b : List Char) (str : List Char) : Token :=
  let dot := c32schr '.' str
  let ty : TokType := if dot then .dotIdentifier else .identifier
  if b[t.len - 1]? = some ':' then
    if dot then { t with ty := .unknown }
    else
      let name := str.take (t.len - 1)
      if isReservedStr name || isTypeStr name then { t with ty := .unknown }
      else { t with ty := .newIdentifier, len := t.len - 1 }
  else { t with ty := ty }

/-- classify.c:58-141 `classify_token`. -/
def classifyToken (t : Token) : Option Token :=
  if t.ty ≠ .unknown then some t
  else
    let single : Option (Option TokType) :=
      if t.len = 1 then
        match t.begin with
        | none => none
        | some [] => some none
        | some (c :: _) => some (singleOper c)
      else some none
    match single with
    | none => none
    | some (some ty) => some { t with ty := ty }
    | some none =>
      match t.begin, tokenToString t with
      | some b, some str =>
        match tryWords tryTable t with
        | none => none
        | some (some ty) => some { t with ty := ty }
        | some none =>
          match isConstantInteger str with
          | none => none
          | some true => some { t with ty := .intConst }
          | some false =>
            match isConstantFloat str with
            | none => none
            | some true => some { t with ty := .floatConst }
            | some false =>
              if isConstantBool str then some { t with ty := .boolConst }
              else if isConstantRune str then some { t with ty := .runeConst }
              else if isConstantStr str then some { t with ty := .strConst }
              else if isValidIdentifier str then some (classifyIdentifier t b str)
              else some t
      | _, _ => none

/-- classify.c:149-154 `classify_tokens`. -/
def classifyTokens : List Token → Option (List Token)
  | [] => some []
  | t :: ts =>
    match classifyToken t with
    | none => none
    | some t' => (classifyTokens ts).map (t' :: ·)

end Skull
