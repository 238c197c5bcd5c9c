import Verif.Model.Token
import Verif.Spec.Heap
/-
The tokenizer again, with tokens as blocks of memory that point to each other: skull/parse/token.c.

`Model/Token` has a list of finished tokens; here `ctx->token`, `ctx->last` and `next` are pointers, and every allocation, access and free
is in a log.  That both make the same tokens is `C83_same`.  The text itself is in no block: it belongs to pipeline.c.
-/
namespace Skull.THeap
open Skull.Spec

abbrev Event := MemEvent Nat

/-- token.h:88-95 `Token`; block `n` is the token number `n` that `make_token` made. -/
structure Node where
  tok : Token := {}
  next : Option Nat := none
  deriving DecidableEq, Repr

/-- token.c:19-26 `TokenizeCtx`, the memory, and the log.  `head` is block 0. -/
structure TH where
  mem : List Node := [{}]
  token : Nat := 0
  last : Nat := 0
  code : List Char
  line : Nat := 1
  col : Nat := 0
  evs : List Event := [.alloc 0]                        -- token.c:57

/-- What a step gives: a result, a diagnosed error, or undefined behaviour (an access to a block that was never made is such, too). -/
inductive Res (α : Type)
  | ok (a : α) (s : TH)
  | err (e : TokErr) (line col : Nat) (s : TH)
  | ub

abbrev HTok (α : Type) : Type := TH → Res α

def HTok.bind (m : HTok α) (f : α → HTok β) : HTok β := fun s =>
  match m s with
  | .ok a s => f a s
  | .err e l k s => .err e l k s
  | .ub => .ub

instance : Monad HTok where
  pure a := fun s => .ok a s
  bind := HTok.bind

def get : HTok TH := fun s => .ok s s
def modify (f : TH → TH) : HTok Unit := fun s => .ok () (f s)
def fail (e : TokErr) (line col : Nat) : HTok α := fun s => .err e line col s
def undefined : HTok α := fun _ => .ub

/-- Read `*ctx->token`. -/
def readTok : HTok Token := fun s =>
  match s.mem[s.token]? with
  | some n => .ok n.tok { s with evs := s.evs ++ [.use s.token] }
  | none => .ub

/-- Write to fields of `*ctx->token` other than `next`. -/
def writeTok (f : Token → Token) : HTok Unit := fun s =>
  match s.mem[s.token]? with
  | some n => .ok () { s with mem := s.mem.set s.token { n with tok := f n.tok }, evs := s.evs ++ [.use s.token] }
  | none => .ub

/-- token.c:244-248: `*ctx->token = (Token){...}`, which makes `next` null. -/
def overwriteTok (t : Token) : HTok Unit := fun s =>
  match s.mem[s.token]? with
  | some _ => .ok () { s with mem := s.mem.set s.token { tok := t }, evs := s.evs ++ [.use s.token] }
  | none => .ub

/-- token.c:41-43 `setup_next` and 301-303 `make_token`: `ctx->token = setup_next(ctx->token)`. -/
def setupNext : HTok Unit := fun s =>
  match s.mem[s.token]? with
  | some n => .ok () { s with
      mem := s.mem.set s.token { n with next := some s.mem.length } ++ [{}]
      token := s.mem.length
      evs := s.evs ++ [.alloc s.mem.length, .use s.token] }
  | none => .ub

/-- `ctx->last = ctx->token` -/
def setLast : HTok Unit := modify fun s => { s with last := s.token }

/-- token.c:266-270 `token_add_info`. -/
def addInfo : HTok Unit := do
  let s ← get
  writeTok fun t => { t with begin := some s.code, line := s.line, col := s.col }

/-- `if (!ctx->token->begin) token_add_info(ctx);` -/
def begin' : HTok Unit := do
  let t ← readTok
  if t.begin.isNone then addInfo else pure ()

/-- token.c:141-181 `iter_comment`. -/
def iterComment : HTok Unit := do
  let s ← get
  match s.code with
  | [] => undefined
  | _ :: rest =>
    match commentKind rest with
    | none => fail .invalidCommentStart s.line s.col
    | some block => do
      begin'
      match commentLoop block rest s.line (s.col + 1) with
      | .at code line col => do
        modify fun s => { s with code := code, line := line, col := col }
        writeTok fun t => { t with ty := .comment }
      | .eof line col => do
        modify fun s => { s with code := [], line := line, col := col }
        if block then do
          let t ← readTok                               -- 175
          fail .noClosingComment t.line t.col
        else writeTok fun t => { t with ty := .comment }
      | .nested line col => fail .nestedBlockComment line col
      | .ub => undefined

/-- token.c:210-237 `iter_quote`. -/
def iterQuote : HTok Unit := do
  let s ← get
  match s.code with
  | [] => undefined
  | quote :: _ => do
    begin'
    match quoteLoop quote s.code s.line s.col with
    | .at code line col => modify fun s => { s with code := code, line := line, col := col }
    | .eof _ _ => do
      let t ← readTok                                   -- 232
      fail .noClosingQuote t.line t.col
    | .nested _ _ => undefined
    | .ub => undefined

/-- `ctx->token->len = ctx->code - ctx->token->begin` -/
def setLen (b : List Char) : HTok Unit := do
  let s ← get
  writeTok fun t => { t with len := b.length - s.code.length }

/-- token.c:239-264 `parse_delimiter`; `c` is `*ctx->code`. -/
def parseDelimiter (c : Char) : HTok Unit := do
  let t ← readTok
  match t.begin with
  | some b => do
    setLen b
    setupNext
  | none => pure ()
  let s ← get
  overwriteTok { begin := some s.code, len := 1, line := s.line, col := s.col }
  writeTok fun t => { t with ty := delimiterType c }
  setLast
  setupNext

/-- token.c:104-114. -/
def innerChain : HTok Unit := do
  let s ← get
  match s.code with
  | [] => pure ()
  | c :: _ =>
    if isDelimiter c then parseDelimiter c
    else do
      let t ← readTok
      match t.begin with
      | none => if !isWhitespace c then addInfo else pure ()
      | some b =>
        if t.len = 0 && isWhitespace c then do
          setLen b
          setLast
          setupNext
        else pure ()

/-- token.c:116-118. -/
def innerStep : HTok Unit := do
  let s ← get
  match s.code with
  | [] => undefined
  | c :: rest =>
    if c = '\n' then modify fun s => { s with code := rest, line := s.line + 1, col := 0 }
    else modify fun s => { s with code := rest }

/-- token.c:93-121 `tokenize_inner_loop`. -/
def innerLoop : HTok Unit := do
  modify fun s => { s with col := s.col + 1 }
  let s ← get
  match s.code with
  | [] => undefined
  | c :: _ =>
    if c = '#' then do
      iterComment
      let s ← get
      if s.code.isEmpty then pure () else innerStep
    else if isQuote c then do
      iterQuote
      innerChain
      innerStep
    else do
      innerChain
      innerStep

/-- token.c:66-73.  `none` means the fuel ran out. -/
def loop : Nat → TH → Option (Res Unit)
  | 0, _ => none
  | fuel + 1, s =>
    if s.code.isEmpty then some (.ok () s)
    else match innerLoop s with
      | .ok _ s => loop fuel s
      | r => some r

/-- token.c:75-85: `ctx.last->next = NULL; free(ctx.token);` for an empty token that is not the first one. -/
def finish : HTok Unit := do
  let t ← readTok
  match t.begin with
  | some b => setLen b
  | none => do
    let s ← get
    if s.token = 0 then pure ()
    else
      match s.mem[s.last]? with
      | some n => modify fun s => { s with mem := s.mem.set s.last { n with next := none }, evs := s.evs ++ [.use s.last, .free s.token] }
      | none => undefined

/-- token.c:347-356 `free_tokens`, from block `p` on.  `none`: there is no such block, or the list does not end. -/
def freeTokens (mem : List Node) : Nat → Option Nat → Option (List Event)
  | _, none => some []
  | 0, some _ => none
  | fuel + 1, some p =>
    match mem[p]? with
    | some n => (freeTokens mem fuel n.next).map ([.use p, .use p, .free p] ++ ·)
    | none => none

/-- The tokens that are reached from block `p` on. -/
def tokensFrom (mem : List Node) : Nat → Option Nat → Option (List Token)
  | _, none => some []
  | 0, some _ => none
  | fuel + 1, some p =>
    match mem[p]? with
    | some n => (tokensFrom mem fuel n.next).map (n.tok :: ·)
    | none => none

/-- What `tokenize` gives: the memory with the list from block 0 on and the log, or the error and the log. -/
inductive Out
  | ok (mem : List Node) (evs : List Event)
  | err (e : TokErr) (line col : Nat) (evs : List Event)
  deriving DecidableEq, Repr

/-- token.c:57-86, `tokenize` after the byte order mark.  `none` is undefined behaviour. -/
def tokenizeFrom (code : List Char) : Option Out :=
  match loop (code.length + 1) { code := code } with
  | some (.ok _ s) =>
    match finish s with
    | .ok _ s => some (.ok s.mem s.evs)
    | _ => none
  | some (.err e l k s) => (freeTokens s.mem (s.mem.length + 1) (some 0)).map fun es => .err e l k (s.evs ++ es)
  | _ => none

/-- token.c:48-86 `tokenize`. -/
def tokenize (werror : Bool) (src : List Char) : Option Out :=
  match src with
  | c :: code =>
    if c = bomChar then (if werror then some (.err .bom 0 0 []) else tokenizeFrom code)
    else tokenizeFrom (c :: code)
  | [] => tokenizeFrom []

end Skull.THeap
