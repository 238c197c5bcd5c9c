import Verif.Model.Parser
import Verif.Spec.Heap
/-
The memory of the syntax tree: the parser of skull/parse/ast_node.c again, now with the blocks it allocates and with a log of what
happens to them, the functions that free the tree (ast_node.c:257-265, 992-1082), `free_tokens` (token.c:348-356) and the order in
which pipeline.c:32-66 calls them.  The vector of the parameters is common/vector.c.

The log has the allocations, everything that is freed, the writes to nodes that are there already, and the uses of memory in the
functions that free something.  The tokens are allocated before the parser starts (the tokenizer's own log is left out).

As the parser leaves the tree, `value.str` of a string constant and `symbol` of a parameter are null.  The semantic check sets them;
what it allocates is in `Model.SemHeap`, but for `value.str`, which is left out.
-/
namespace Skull.PHeap

open Skull.Spec (MemEvent)

/-- A block of memory: a token, named by the number of tokens from there on, or what the parser allocated, numbered in turn. -/
inductive Block
  | tok (left : Nat)
  | mem (id : Nat)
  deriving DecidableEq, Repr

abbrev Event := MemEvent Block

mutual
/-- `AstNodeExpr` (`Expr`) with its block.  A constant has the block of its token as well, a call the block of its
`AstNodeFunctionCall`. -/
inductive HExpr
  | missing
  | ident (b : Nat) (tok : Token)
  | const (b : Nat) (tok : Token) (left : Nat)
  | call (b c : Nat) (name : Token) (params : HArgs) (numValues : Nat)
  | un (b : Nat) (oper : Oper) (rhs : HExpr)
  | bin (b : Nat) (oper : Oper) (lhs rhs : HExpr)
/-- The list of nodes behind `AstNodeFunctionCall.params`, with the empty node at its end. -/
inductive HArgs
  | last (b : Nat)
  | cons (b : Nat) (first : Token) (expr : HExpr) (next : HArgs)
end

mutual
/-- The expression without the blocks. -/
def HExpr.plain : HExpr → Expr
  | .missing => .missing
  | .ident _ t => .ident t
  | .const _ t _ => .const t
  | .call _ _ n as k => .call n as.plain k
  | .un _ o e => .un o e.plain
  | .bin _ o l r => .bin o l.plain r.plain
def HArgs.plain : HArgs → Args
  | .last _ => .nil
  | .cons _ t e n => .cons t e.plain n.plain
end

/-- The address of an expression; `none` is the null pointer. -/
def HExpr.block : HExpr → Option Nat
  | .missing => none
  | .ident b _ | .const b _ _ | .call b _ _ _ _ | .un b _ _ | .bin b _ _ _ => some b

/-- What is at the address `p`, if that is one of the operators and operands from `e` down (without the arguments of calls). -/
def HExpr.at? (p : Option Nat) (e : HExpr) : Option HExpr :=
  if e.block = p then some e
  else match e with
    | .un _ _ r => r.at? p
    | .bin _ _ l r => (l.at? p).or (r.at? p)
    | _ => none

/-- The address of the last node of the arguments. -/
def HArgs.lastBlock : HArgs → Nat
  | .last b => b
  | .cons _ _ _ n => n.lastBlock

mutual
/-- ast_node.c:992-1016 `free_expr_node`. -/
def HExpr.free : HExpr → List Event
  | .missing => []
  | .ident b _ => [.use (.mem b), .free (.mem b)]
  | .const b _ left => [.use (.mem b), .use (.tok left), .free (.mem b)]
  | .call b c _ as _ => .use (.mem b) :: .use (.mem c) :: as.free ++ [.use (.mem b), .free (.mem c), .free (.mem b)]
  | .un b _ r => .use (.mem b) :: r.free ++ [.free (.mem b)]
  | .bin b _ l r => .use (.mem b) :: l.free ++ .use (.mem b) :: r.free ++ [.free (.mem b)]
/-- `free_ast_tree` (ast_node.c:1024-1036) of the arguments, whose nodes are all `AST_NODE_EXPR` but the last. -/
def HArgs.free : HArgs → List Event
  | .last b => [.use (.mem b), .free (.mem b)]
  | .cons b _ e n => .use (.mem b) :: e.free ++ .use (.mem b) :: .free (.mem b) :: n.free
end

/-- The state of `Model.Parser` with the number of the next allocation and the log. -/
structure HS where
  ps : PS
  next : Nat := 0
  evs : List Event := []

def HS.log (h : HS) (es : List Event) : HS := { h with evs := h.evs ++ es }

/-- `Malloc` or `Calloc`: the new block is `h.next`. -/
def HS.alloc (h : HS) : HS := { h with next := h.next + 1, evs := h.evs ++ [.alloc (.mem h.next)] }

def HS.setToks (h : HS) (toks : List Token) : HS := { h with ps := { h.ps with toks := toks } }

def HS.fail (h : HS) (code : Code) (t : Option Token) : HS := { h with ps := h.ps.fail code t }

inductive HP (α : Type)
  | ok (a : α) (h : HS)
  | ub
  | fuel

/-- `attach` with blocks; `b` is the new node. -/
def attachH (last : HExpr) (b : Nat) (oper : Oper) (rhs : HExpr) : HExpr :=
  if operToPrecedence last.plain.oper > operToPrecedence oper then
    match last with
    | .un b' o r => .un b' o (.bin b oper r rhs)
    | .bin b' o l r => .bin b' o l (.bin b oper r rhs)
    | e => .bin b oper e rhs
  else .bin b oper last rhs

/-- ast_node.c:679-680: reading the operators of the old root and of the new node. -/
def attachLog (last : HExpr) (b : Nat) : List Event :=
  match last.block with
  | some b' => [.use (.mem b'), .use (.mem b)]
  | none => [.use (.mem b)]

/-- ast_node.c:674-677: `free_expr_node(head)`, where the operators made so far are those from `cur` down. -/
def freeHead (head : Option Nat) (cur : HExpr) (h : HS) : HP (Option HExpr) :=
  match cur.at? head with
  | some e => .ok none (h.log e.free)
  | none => .ub

/-- `push_ast_node` in a list of arguments; `b` is the new node at the end. -/
def HArgs.snoc : HArgs → Token → HExpr → Nat → HArgs
  | .last b', t, e, b => .cons b' t e (.last b)
  | .cons b' t' e' n, t, e, b => .cons b' t' e' (n.snoc t e b)

mutual

/-- ast_node.c:661-693 `parse_expression`. -/
def parseExpressionH : Nat → HS → HP (Option HExpr)
  | 0, _ => .fuel
  | f + 1, h =>
    match h.ps.toks with
    | [] => .ok none h
    | _ :: _ =>
      match parseSingleH f h with
      | .ok head h =>
        if h.ps.err then .ok none h
        else match head with
          | none => .ok none h
          | some e => parseRhsLoopH f e.block e h
      | .ub => .ub
      | .fuel => .fuel

/-- ast_node.c:670-692 with `parse_expr_rhs` (768-799). -/
def parseRhsLoopH : Nat → Option Nat → HExpr → HS → HP (Option HExpr)
  | 0, _, _, _ => .fuel
  | f + 1, head, cur, h =>
    match h.ps.toks with
    | [] => .ok (some cur) h
    | t :: rest =>
      if binaryOper t.ty = .unknown then .ok (some cur) h
      else if isUnaryOper (binaryOper t.ty) then freeHead head cur (h.fail .errUnexpectedUnaryExpr t)
      else
        match parseSingleH f (h.setToks rest) with
        | .ok none h => freeHead head cur (h.fail .errExpectedExpr t)
        | .ok (some rhs) h =>
          if h.ps.err then freeHead head cur h.alloc
          else parseRhsLoopH f head (attachH cur h.next (binaryOper t.ty) rhs) (h.alloc.log (attachLog cur h.next))
        | .ub => .ub
        | .fuel => .fuel

/-- ast_node.c:695-727 `parse_single_expr`. -/
def parseSingleH : Nat → HS → HP (Option HExpr)
  | 0, _ => .fuel
  | f + 1, h =>
    match h.ps.toks with
    | [] => .ok none h
    | t :: rest =>
      if unaryOper t.ty = .unknown then parseRootH f h
      else match rest with
        | [] => .ok none ((h.setToks []).fail .errExpectedExpr t)
        | t2 :: _ =>
          if unaryOper t2.ty ≠ .unknown then .ok none ((h.setToks rest).fail .errNoDoubleUnary t2)
          else match parseRootH f (h.setToks rest).alloc with
            | .ok none h' => .ok (some (.un h.next (unaryOper t.ty) .missing)) (h'.log [.use (.mem h.next)])
            | .ok (some e) h' => .ok (some (.un h.next (unaryOper t.ty) e)) (h'.log [.use (.mem h.next)])
            | .ub => .ub
            | .fuel => .fuel

/-- ast_node.c:752-766 `parse_root_expr`, with `parse_paren_expr` (839-863) and `parse_single_token_expr` (868-877). -/
def parseRootH : Nat → HS → HP (Option HExpr)
  | 0, _ => .fuel
  | f + 1, h =>
    match h.ps.toks with
    | [] => .ub
    | t :: rest =>
      if t.ty = .parenOpen then
        match parseExpressionH f (h.setToks rest) with
        | .ok none h => .ok none (h.fail .errInvalidExpr t)
        | .ok (some e) h =>
          match h.ps.toks with
          | [] => .ok none ((h.fail .errMissingClosingParen t).log e.free)
          | c :: rest' =>
            if c.ty ≠ .parenClose then .ok none ((h.fail .errMissingClosingParen t).log e.free)
            else .ok (some e) (h.setToks rest')
        | .ub => .ub
        | .fuel => .fuel
      else if isIdentLike t && (rest.head?.map (·.ty)) = some .parenOpen then
        parseArgsH f t (.last h.next) 0 (h.setToks rest.tail).alloc
      else if isSingleTokenExpr t.ty then
        .ok (some (if isIdentLike t then .ident h.next t else .const h.next t (rest.length + 1))) (h.setToks rest).alloc
      else .ok none h

/-- ast_node.c:894-965, the loop of `parse_func_call` (884-966). -/
def parseArgsH : Nat → Token → HArgs → Nat → HS → HP (Option HExpr)
  | 0, _, _, _, _ => .fuel
  | f + 1, name, args, num, h =>
    match h.ps.toks with
    | [] => .ok none ((h.fail .errUnclosedFuncCall name).log args.free)
    | last :: _ =>
      if last.ty = .comma then .ok none ((h.fail .errUnexpectedComma last).log args.free)
      else
        match parseExpressionH f h with
        | .ok e h =>
          let args' := match e with | none => args | some e => args.snoc last e h.next
          let num' := match e with | none => num | some _ => (num + 1) % 65536
          let h := match e with | none => h | some _ => h.alloc.log [.use (.mem args.lastBlock)]
          match h.ps.toks with
          | [] => .ok none ((h.fail .errMissingClosingParen last).log args'.free)
          | t :: rest =>
            if t.ty = .newline then .ok none ((h.fail .errMissingClosingParen t).log args'.free)
            else if t.ty = .parenClose then
              .ok (some (.call h.next (h.next + 1) name args' num')) (h.setToks rest).alloc.alloc
            else if t.ty ≠ .comma then .ok none ((h.fail .errExpectedComma t).log args'.free)
            else parseArgsH f name args' num' (h.setToks rest)
        | .ub => .ub
        | .fuel => .fuel

end

def parseExprH (h : HS) : HP (Option HExpr) := parseExpressionH (exprFuel h.ps.toks) h

/-- `AstNodeFunctionParam` (`Param`) with its block and that of its `param_name`. -/
structure HParam where
  b : Nat
  name : Nat
  param : Param

/-- ast_node.c:257-265 `free_param`; `symbol` is null. -/
def HParam.free (p : HParam) : List Event := [.use (.mem p.b), .free (.mem p.name), .free (.mem p.b)]

/-- The vector of parameters: its block, that of `elements` (`none`: null), `max`, and the elements (last first). -/
structure HVec where
  b : Nat
  elements : Option Nat := none
  max : Nat := 8
  items : List HParam := []

/-- vector.c:10-23 `vector_push`.  `Realloc` frees the old block and allocates a new one. -/
def HVec.push (v : HVec) (p : HParam) (h : HS) : HVec × HS :=
  match v.elements with
  | none => ({ v with elements := some h.next, items := p :: v.items }, h.alloc)
  | some el =>
    if v.items.length ≥ v.max then
      ({ v with elements := some h.next, max := v.max * 2, items := p :: v.items }, (h.log [.free (.mem el)]).alloc)
    else ({ v with items := p :: v.items }, h.log [.use (.mem el)])

/-- The events of `free(v->elements)`. -/
def HVec.freeElements (v : HVec) : List Event :=
  match v.elements with
  | some el => [.free (.mem el)]
  | none => []

/-- vector.c:75-94 `free_vector(params, free_param)`. -/
def HVec.freeAll (v : HVec) : List Event :=
  .use (.mem v.b) :: v.items.reverse.flatMap HParam.free ++ v.freeElements ++ [.use (.mem v.b), .free (.mem v.b)]

/-- ast_node.c:383-410 `parse_function_proto_params`; the first part of the result is `none` when the fuel runs out. -/
def parseParamsH : Nat → List Token → HVec → HS → Option (HVec × List Token × HS)
  | 0, _, _, _ => none
  | f + 1, toks, v, h =>
    match isExplicitType toks, toks with
    | none, _ => some (v, toks, h)
    | some [], _ => some (v, [], h)
    | some (last :: rest), name :: type =>
      let p : HParam := ⟨h.next, h.next + 1, ⟨name, type⟩⟩
      let (v, h) := v.push p (h.alloc.alloc.log [.use (.mem h.next)])
      if last.ty ≠ .comma then some (v, last :: rest, h)
      else parseParamsH f rest v h
    | some (last :: rest), [] => some (v, last :: rest, h)

/-- The data of a node (`Stmt`) with its blocks.  `bare` are the nodes that own nothing.  A definition or assignment whose `var_def` or
`var_assign` is null (after an error) has `none`. -/
inductive HStmt
  | bare (st : Stmt)
  | varDef (b : Option Nat) (name : List Token) (isConst isImplicit isExported : Bool) (expr : HExpr)
  | varAssign (b : Option Nat) (expr : HExpr)
  | funcProto (b : Nat) (params : List HParam) (proto : FuncProto)
  | expr (expr : HExpr)
  | ret (expr : HExpr)
  | ifs (cond : HExpr)
  | elifs (cond : HExpr)
  | whiles (cond : HExpr)

def HStmt.plain : HStmt → Stmt
  | .bare st => st
  | .varDef _ n c i x e => .varDef n c i x e.plain
  | .varAssign _ e => .varAssign e.plain
  | .funcProto _ ps p => .funcProto { p with params := ps.map (·.param) }
  | .expr e => .expr e.plain
  | .ret e => .ret e.plain
  | .ifs e => .ifs e.plain
  | .elifs e => .elifs e.plain
  | .whiles e => .whiles e.plain

/-- ast_node.c:1070-1075 `free_ast_var_def`, 1077-1082 `free_ast_var_assign`. -/
def freeSet (b : Option Nat) (e : HExpr) : List Event :=
  match b with
  | some b => .use (.mem b) :: e.free ++ [.free (.mem b)]
  | none => []

/-- ast_node.c:1036-1056 `free_ast_node` and 1058-1082: `free_ast_function_proto`, `free_ast_var_def`, `free_ast_var_assign`. -/
def HStmt.free : HStmt → List Event
  | .bare _ => []
  | .varDef b _ _ _ _ e => freeSet b e
  | .varAssign b e => freeSet b e
  | .funcProto b ps _ => .use (.mem b) :: ps.flatMap HParam.free ++ [.free (.mem b)]
  | .expr e | .ret e | .ifs e | .elifs e | .whiles e => e.free

/-- `AstNode` (`Tree`) with its block. -/
inductive HTree
  | nil
  | node (b : Nat) (stmt : HStmt) (tok tokEnd : List Token) (child next : HTree)

def HTree.plain : HTree → Tree
  | .nil => .nil
  | .node _ st tok te ch nx => .node st.plain tok te ch.plain nx.plain

/-- ast_node.c:1024-1036 `free_ast_tree`. -/
def HTree.free : HTree → List Event
  | .nil => []
  | .node b st _ _ ch nx =>
    .use (.mem b) :: st.free ++ .use (.mem b) :: ch.free ++ .use (.mem b) :: .free (.mem b) :: nx.free

/-- A node of the list being built: everything but `next`. -/
structure HNode where
  b : Nat
  stmt : HStmt
  tok : List Token
  tokEnd : List Token
  child : HTree

/-- `ParserCtx` (`PCtx`); `node` is the block of `ctx->node`. -/
structure HCtx where
  hs : HS
  done : List HNode := []
  node : Nat
  headChild : HTree := .nil

/-- The nodes before a list (last first). -/
def linkNodesH : List HNode → HTree → HTree
  | [], acc => acc
  | n :: ns, acc => linkNodesH ns (.node n.b n.stmt n.tok n.tokEnd n.child acc)

/-- The whole list from `ctx->head` on, with the empty `ctx->node` at its end. -/
def HCtx.chain (c : HCtx) : HTree := linkNodesH c.done (.node c.node (.bare .unknown) [] [] c.headChild .nil)

/-- ast_node.c:971-987 `push_ast_node`. -/
def HCtx.push (c : HCtx) (stmt : HStmt) (tok tokEnd : List Token) : HCtx :=
  { hs := c.hs.alloc.log [.use (.mem c.node)], done := ⟨c.node, stmt, tok, tokEnd, c.headChild⟩ :: c.done, node := c.hs.next,
    headChild := .nil }

/-- Setting the data of the node that was pushed last. -/
def HCtx.setStmt (c : HCtx) (stmt : HStmt) : HCtx :=
  match c.done with
  | [] => c
  | n :: ns => { c with hs := c.hs.log [.use (.mem n.b)], done := { n with stmt := stmt } :: ns }

inductive HPRes
  | ok (c : HCtx)
  | ignore (c : HCtx)
  | error (c : HCtx)
  | ub
  | fuel

/-- ast_node.c:349-380, the end of `parse_function_proto`.  The elements are freed by hand if there are any to copy; the vector is
frozen then, and not otherwise. -/
def pushProtoH (c : HCtx) (h : HS) (first name after : List Token) (v : HVec) (ret : Option (List Token))
    (isExternal isExport : Bool) : HPRes :=
  match name with
  | [] => .ub
  | n :: _ =>
    let num := v.items.length % 65536
    let params := v.items.reverse.take num
    let b := h.next
    let h := h.alloc.log ([.use (.mem c.node), .use (.mem b), .use (.mem v.b)] ++ v.freeElements ++ [.use (.mem v.b), .free (.mem v.b)])
    let c := { c with hs := h }.push (.funcProto b params ⟨n, ret, isExternal, isExport, params.map HParam.param, num⟩) first after
    .ok { c with hs := c.hs.setToks after.tail }

/-- ast_node.c:285-381, `parse_function_proto` after the opening parenthesis. -/
def finishProtoH (c : HCtx) (first name start : List Token) (isExternal isExport : Bool) : HPRes :=
  match parseParamsH (start.length + 1) start { b := c.hs.next } c.hs.alloc with
  | none => .fuel
  | some (v, [], h) =>
    .error { c with hs := ((h.setToks []).fail .errMissingClosingParen name.tail.head?).log v.freeAll }
  | some (v, cur :: after, h) =>
    let isProto := (cur :: after).length ≠ start.length
    let tokType := if isExternal then TokType.newline else .bracketOpen
    match (if cur.ty = .parenClose then isPotentialType after else none) with
    | some [] => .ub
    | some (ty :: more) =>
      if (more.head?.map (·.ty)) = some tokType then
        pushProtoH c h first name (ty :: more) v (some after) isExternal isExport
      else
        let code : Code := if isExternal then .errExpectedNewline else .errMissingOpenBrak
        .error { c with hs := ((h.setToks (cur :: after)).fail code (some ty)).log v.freeAll }
    | none =>
      if cur.ty = .parenClose ∧ (after.head?.map (·.ty)) = some tokType then
        pushProtoH c h first name (cur :: after) v none isExternal isExport
      else if isProto then
        .error { c with hs := ((h.setToks (cur :: after)).fail .errExpectedComma (some cur)).log v.freeAll }
      else if isExternal && after = [] then
        .error { c with hs := ((h.setToks (cur :: after)).fail .errExpectedNewline (some cur)).log v.freeAll }
      else .ignore { c with hs := h.log v.freeAll }

/-- ast_node.c:267-381 `parse_function_proto`. -/
def parseFunctionProtoH (c : HCtx) : HPRes :=
  match c.hs.ps.toks with
  | [] => .ub
  | t :: rest =>
    let isExternal := t.ty = .kwExternal
    let isExport := t.ty = .kwExport
    let name := if isExternal || isExport then rest else t :: rest
    match tokenCmp2 name .identifier .parenOpen with
    | none => .ub
    | some false => .ignore c
    | some true => finishProtoH c (t :: rest) name name.tail.tail isExternal isExport

/-- ast_node.c:134-161, the end of `parse_var_def`. -/
def finishVarDefH (c : HCtx) (first name cur : List Token) (isConst isImplicit isExported : Bool) : HPRes :=
  match cur with
  | [] => .ub
  | _ :: rest =>
    let c := c.push (.varDef none name isConst isImplicit isExported .missing) first cur
    match parseExprH (c.hs.setToks rest) with
    | .ub => .ub
    | .fuel => .fuel
    | .ok e h =>
      if h.ps.err then .error { c with hs := h }
      else match e with
        | none =>
          match h.ps.toks with
          | [] => .ub
          | t :: _ => .error { c with hs := h.fail .errAssignMissingExpr t }
        | some e =>
          let c := { c with hs := h.alloc.log [.use (.mem h.next)] }.setStmt
            (.varDef (some h.next) name isConst isImplicit isExported e)
          match h.ps.toks with
          | [] => .ok c
          | t :: _ =>
            if t.ty ≠ .newline then .error { c with hs := c.hs.fail .errExpectedNewline t }
            else .ok c

/-- ast_node.c:93-162 `parse_var_def`. -/
def parseVarDefH (c : HCtx) : HPRes :=
  let first := c.hs.ps.toks
  match first with
  | [] => .ub
  | t :: rest =>
    let isMut := t.ty = .kwMut
    let isExported := t.ty = .kwExport
    let name := if isMut || isExported then rest else first
    match name with
    | [] => .ignore c
    | n :: _ =>
      match isExplicitType name with
      | some [] => .error { c with hs := (c.hs.setToks []).fail .errMissingAssignment n }
      | some cur => finishVarDefH c first name cur (!isMut) false isExported
      | none =>
        match tokenCmp2 name .identifier .operAutoEqual with
        | none => .ub
        | some true => finishVarDefH c first name name.tail (!isMut) true isExported
        | some false => .ignore c

/-- ast_node.c:203-227 `parse_var_assign`. -/
def parseVarAssignH (c : HCtx) : HPRes :=
  match c.hs.ps.toks with
  | [] => .ub
  | t :: rest =>
    if !(isIdentLike t && (rest.head?.map (·.ty)) = some .operEqual) then .ignore c
    else
      let c := c.push (.varAssign none .missing) (t :: rest) rest
      match parseExprH (c.hs.setToks rest.tail) with
      | .ub => .ub
      | .fuel => .fuel
      | .ok none h =>
        match h.ps.toks with
        | [] => .ub
        | t' :: _ => .error { c with hs := h.fail .errAssignMissingExpr t' }
      | .ok (some e) h => .ok ({ c with hs := h.alloc.log [.use (.mem h.next)] }.setStmt (.varAssign (some h.next) e))

inductive HNRes
  | ok (done : Bool) (c : HCtx)
  | ub
  | fuel

/-- `pushToken`. -/
def pushTokenH (c : HCtx) (stmt : Stmt) : HNRes :=
  let toks := c.hs.ps.toks
  let c := c.push (.bare stmt) toks toks
  .ok false { c with hs := c.hs.setToks toks.tail }

/-- ast_node.c:83-91 `parse_return`. -/
def parseReturnH (c : HCtx) : HNRes :=
  let toks := c.hs.ps.toks
  let c := c.push (.ret .missing) toks toks
  match parseExprH (c.hs.setToks toks.tail) with
  | .ub => .ub
  | .fuel => .fuel
  | .ok e h =>
    if h.ps.err then .ok false { c with hs := h }
    else match e with
      | none => .ok false { c with hs := h }
      | some e => .ok false ({ c with hs := h }.setStmt (.ret e))

/-- ast_node.c:412-431 `parse_condition`. -/
def parseConditionH (c : HCtx) (mk : HExpr → HStmt) : HNRes :=
  match c.hs.ps.toks with
  | t :: t2 :: rest =>
    let c := c.push (mk .missing) (t :: t2 :: rest) (t :: t2 :: rest)
    match parseExprH (c.hs.setToks (t2 :: rest)) with
    | .ub => .ub
    | .fuel => .fuel
    | .ok none h => .ok false { c with hs := h.fail .errInvalidExpr h.ps.toks.head? }
    | .ok (some e) h =>
      if h.ps.err then .ok false { c with hs := h.fail .errInvalidExpr h.ps.toks.head? }
      else .ok false ({ c with hs := h }.setStmt (mk e))
  | _ => .ok false { c with hs := { c.hs with ps := { c.hs.ps with err := true } } }

/-- ast_node.c:450-459 `parse_namespace`. -/
def parseNamespaceH (c : HCtx) : HNRes :=
  match c.hs.ps.toks with
  | t :: t2 :: rest =>
    let c := c.push (.bare .namespaces) (t :: t2 :: rest) rest
    .ok false { c with hs := c.hs.setToks rest }
  | _ => .ok false { c with hs := { c.hs with ps := { c.hs.ps with err := true } } }

/-- ast_node.c:523-538 `parse_import`. -/
def parseImportH (c : HCtx) : HNRes :=
  match c.hs.ps.toks with
  | [] => .ub
  | [t] => .ok false { c with hs := c.hs.fail .errImportIdent t }
  | t :: t2 :: rest =>
    if t2.ty = .identifier then
      let c := c.push (.bare .imports) (t :: t2 :: rest) (t :: t2 :: rest)
      .ok false { c with hs := c.hs.setToks rest }
    else .ok false { c with hs := c.hs.fail .errImportIdent t2 }

/-- ast_node.c:581-599: the expression statement. -/
def parseExprStmtH (c : HCtx) : HNRes :=
  let toks := c.hs.ps.toks
  match parseExprH c.hs with
  | .ub => .ub
  | .fuel => .fuel
  | .ok (some e) h => .ok false (({ c with hs := h }.push (.expr .missing) toks h.ps.toks).setStmt (.expr e))
  | .ok none h =>
    if h.ps.err then .ok false { c with hs := h }
    else .ok false { c with hs := h.fail .errUnexpectedToken h.ps.toks.head? }

/-- ast_node.c:573-603: the default case of `parse_ast_node`. -/
def parseDefaultH (c : HCtx) : HNRes :=
  match parseFunctionProtoH c with
  | .ok c => .ok false c
  | .error c => .ok false c
  | .ub => .ub
  | .fuel => .fuel
  | .ignore c =>
    match parseVarDefH c with
    | .ok c => .ok false c
    | .error c => .ok false c
    | .ub => .ub
    | .fuel => .fuel
    | .ignore c =>
      match parseVarAssignH c with
      | .ok c => .ok false c
      | .error c => .ok false c
      | .ub => .ub
      | .fuel => .fuel
      | .ignore c => parseExprStmtH c

/-- ast_node.c:489-495: the empty node at the end is taken off and freed, but if it is the only one. -/
def HCtx.close (c : HCtx) : HTree × HS :=
  match c.done with
  | [] => (.node c.node (.bare .unknown) [] [] c.headChild .nil, c.hs)
  | n :: ns => (linkNodesH (n :: ns) .nil, c.hs.log [.use (.mem c.node), .use (.mem n.b), .free (.mem c.node)])

inductive HTRes
  | ok (tree : Option HTree) (h : HS)
  | ub
  | fuel

def HTree.hasToken : HTree → Bool
  | .nil => false
  | .node _ _ tok _ _ _ => tok ≠ []

def HCtx.lastHasChild (c : HCtx) : Bool :=
  match c.done with
  | { child := .node .., .. } :: _ => true
  | _ => false

/-- ast_node.c:644-651: hang the block `child` on the last node, or on the head; a block that hangs there already is forgotten. -/
def HCtx.setChild (c : HCtx) (child : HTree) : HCtx :=
  match c.done with
  | [] => { c with hs := c.hs.log [.use (.mem c.node)], headChild := child }
  | n :: ns => { c with hs := c.hs.log [.use (.mem n.b)], done := { n with child := child } :: ns }

mutual

/-- ast_node.c:466-496 `parse_ast_tree_`. -/
def parseTreeH : Nat → Nat → HS → HTRes
  | 0, _, _ => .fuel
  | f + 1, lvl, h =>
    match parseNodesH f lvl { hs := h.alloc, node := h.next } with
    | .ub => .ub
    | .fuel => .fuel
    | .ok _ c =>
      if c.hs.ps.err then .ok none (c.hs.log c.chain.free)
      else if c.hs.ps.toks = [] && lvl ≠ 0 then .ok none ((c.hs.fail .errEofNoBracket none).log c.chain.free)
      else .ok (some c.close.1) c.close.2

/-- ast_node.c:470-474, the loop of `parse_ast_tree_`. -/
def parseNodesH : Nat → Nat → HCtx → HNRes
  | 0, _, _ => .fuel
  | f + 1, lvl, c =>
    match c.hs.ps.toks with
    | [] => .ok false c
    | _ :: _ =>
      match parseNodeH f lvl c with
      | .ub => .ub
      | .fuel => .fuel
      | .ok done c => if done || c.hs.ps.err then .ok done c else parseNodesH f lvl c

/-- ast_node.c:545-608 `parse_ast_node`. -/
def parseNodeH : Nat → Nat → HCtx → HNRes
  | 0, _, _ => .fuel
  | f + 1, lvl, c =>
    match c.hs.ps.toks with
    | [] => .ub
    | t :: rest =>
      match t.ty with
      | .bracketClose =>
        if lvl = 0 then .ok true { c with hs := c.hs.fail .errMissingOpenBrak t }
        else .ok true c
      | .bracketOpen => parseSubTreeH f lvl c
      | .newline | .comma => .ok false { c with hs := c.hs.setToks rest }
      | .kwReturn => parseReturnH c
      | .kwIf => parseConditionH c .ifs
      | .kwElif => parseConditionH c .elifs
      | .kwElse => pushTokenH c .elses
      | .kwWhile => parseConditionH c .whiles
      | .kwNamespace => parseNamespaceH c
      | .kwUnreachable => pushTokenH c .unreachable
      | .comment => pushTokenH c .comment
      | .kwNoop => pushTokenH c .noop
      | .kwBreak => pushTokenH c .breaks
      | .kwContinue => pushTokenH c .continues
      | .kwImport => parseImportH c
      | _ => parseDefaultH c

/-- ast_node.c:613-654 `parse_ast_sub_tree_`. -/
def parseSubTreeH : Nat → Nat → HCtx → HNRes
  | 0, _, _ => .fuel
  | f + 1, lvl, c =>
    match c.hs.ps.toks with
    | [] => .ub
    | t :: rest =>
      if c.lastHasChild then .ok false { c with hs := c.hs.fail .errUnexpectedCodeBlock t }
      else
        match parseTreeH f (lvl + 1) { c.hs with ps := { c.hs.ps with toks := rest, err := false } } with
        | .ub => .ub
        | .fuel => .fuel
        | .ok none h => .ok false { c with hs := { h with ps := { h.ps with err := true } } }
        | .ok (some child) h =>
          if h.ps.err then .ok false { c with hs := { h with ps := { h.ps with err := true } } }
          else if !child.hasToken then
            match h.ps.toks with
            | [] => .ub
            | t' :: _ =>
              .ok false { c with hs := ({ h with ps := { h.ps with err := c.hs.ps.err } }.fail .errEmptyBlock t').log child.free }
          else
            match h.ps.toks with
            | [] => .ub
            | _ :: rest' =>
              .ok false ({ c with hs := { h with ps := { h.ps with toks := rest', err := c.hs.ps.err } } }.setChild child)

end

def HTree.setHead (toks : List Token) : HTree → HTree
  | .nil => .nil
  | .node b st tok te ch nx => if tok = [] then .node b st toks te ch nx else .node b st tok te ch nx

/-- The tokens from the list's head on, first to last. -/
def tokBlocks : Nat → List Block
  | 0 => []
  | n + 1 => .tok (n + 1) :: tokBlocks n

/-- token.c:348-356 `free_tokens`. -/
def freeTokens (n : Nat) : List Event := (tokBlocks n).flatMap fun b => [.use b, .free b]

/-- ast_node.c:62-81 `parse_ast_tree`.  The tokens have been allocated. -/
def parseAstTreeH (toks : List Token) : HTRes :=
  match parseTreeH (treeFuel toks) 0 { ps := { toks := toks }, evs := (tokBlocks toks.length).map .alloc } with
  | .ub => .ub
  | .fuel => .fuel
  | .ok none h => .ok none h
  | .ok (some t) h => if h.ps.err then .ok none (h.log t.free) else .ok (some (t.setHead toks)) h

/-- pipeline.c:41: `node->type == AST_NODE_UNKNOWN && !node->child`. -/
def HTree.isEmpty : HTree → Bool
  | .node _ (.bare .unknown) _ _ .nil _ => true
  | _ => false

/-- All that happens to the tokens and the syntax tree, pipeline.c:39-66: the parser, and the two calls that free the tree and the
tokens. -/
def memoryLog (toks : List Token) : Option (List Event) :=
  match parseAstTreeH toks with
  | .ok none h => some (h.evs ++ freeTokens toks.length)
  | .ok (some t) h =>
    if t.isEmpty then some (h.evs ++ (freeTokens toks.length ++ t.free))
    else some (h.evs ++ (t.free ++ freeTokens toks.length))
  | .ub => none
  | .fuel => none

end Skull.PHeap
