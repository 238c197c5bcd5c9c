import Verif.Spec.CFits
import Verif.Spec.Declared
import Verif.Proofs.CValue
/-
The C form of a program does what the program does: what is known of the program, and what variables and objects have to do with each other.
-/
namespace Skull.CSim
open Spec Spec.C

/- ### Values -/

/-- What an object holds that has this value. -/
def cval : Val → Option CVal
  | .int i => some (.int .long i)
  | .bool b => some (.int .bool (if b then 1 else 0))
  | .rune r => if r < 2 ^ 32 then some (.int .uint r) else none
  | .float b => some (.dbl b)
  | .str s => some (.str s)
  | .unit => none

/-- A value of a type. -/
def Typed : Ty → Val → Prop
  | .prim .int, .int _ => True
  | .prim .float, .float _ => True
  | .prim .bool, .bool _ => True
  | .prim .rune, .rune _ => True
  | .prim .str, .str _ => True
  | .prim .void, .unit => True
  | _, _ => False

theorem Typed.int {v} (h : Typed (.prim .int) v) : ∃ i, v = .int i := by cases v <;> first | exact ⟨_, rfl⟩ | exact h.elim
theorem Typed.bool {v} (h : Typed (.prim .bool) v) : ∃ b, v = .bool b := by cases v <;> first | exact ⟨_, rfl⟩ | exact h.elim

theorem HasTy.typed {ty v} (h : HasTy ty v) : Typed ty v := by
  unfold HasTy at h
  split at h <;> first | trivial | exact h.elim

theorem cval_stands {v cv} (h : cval v = some cv) : StandsFor false v cv := by
  cases v with
  | int i => cases h; exact stands_int (.inl rfl)
  | bool b => cases h; exact ⟨.inl rfl, fun _ h => by cases h⟩
  | rune r =>
    simp only [cval] at h
    split at h
    · rename_i hr
      cases h
      exact ⟨⟨.inr rfl, hr⟩, fun _ h => by cases h⟩
    · cases h
  | float b => cases h; exact ⟨rfl, fun _ h => by cases h⟩
  | str s => cases h; exact ⟨rfl, fun _ h => by cases h⟩
  | unit => cases h

/-- Conversion to the type of the value gives what an object holds. -/
theorem convert_stands {ty v x} (h : Stands v x) (ht : Typed ty v) : ∃ cv, cval v = some cv ∧ convert (cType ty) x = some cv := by
  cases v with
  | int i =>
    match ty, ht with
    | .prim .int, _ => rcases h with rfl | rfl <;> exact ⟨_, rfl, by simp [cType, convert]⟩
  | bool b =>
    match ty, ht with
    | .prim .bool, _ => rcases h with rfl | rfl <;> cases b <;> exact ⟨_, rfl, by decide⟩
  | rune r =>
    match ty, ht with
    | .prim .rune, _ =>
      obtain ⟨h1, h2⟩ := h
      have : ((r : Int) % 2 ^ 32) = r := Int.emod_eq_of_lt (by omega) (by omega)
      refine ⟨.int .uint r, by simp only [cval, if_pos h2], ?_⟩
      rcases h1 with rfl | rfl <;>
      · simp only [cType, convert]
        rw [if_neg (by decide), if_neg (by decide), if_pos trivial, this]
  | float b =>
    match ty, ht with
    | .prim .float, _ => cases h; exact ⟨_, rfl, by simp [cType, convert]⟩
  | str s =>
    match ty, ht with
    | .prim .str, _ => cases h; exact ⟨_, rfl, by simp [cType, convert]⟩
  | unit => exact h.elim

theorem typed_const (v : Value) : Typed v.type (.ofConst v) := by cases v <;> trivial

theorem int64_typed {i z} (h : int64 i = some z) : Typed (.prim .int) z := by
  obtain ⟨rfl, _⟩ := int64_some h
  trivial

theorem typed_un {F o ty x z tz} (h : docUn F o ty x = some z) (ht : unType o ty = some tz) : Typed tz z := by
  unfold docUn at h
  split at h
  · cases ht; exact int64_typed h
  · cases ht; cases h; trivial
  · cases ht; cases h; trivial
  · cases h

theorem typed_bin {F o ty x y z tz} (h : docBin F o ty x y = some z) (ht : binType o ty = some tz) : Typed tz z := by
  unfold docBin at h
  split at h <;>
    first
    | (cases h; done)
    | (cases ht; exact int64_typed h)
    | (cases ht; cases h; trivial)
    | (cases ht; split at h <;> first | (cases h; done) | exact int64_typed h | (cases h; trivial))
    | (cases ht
       obtain ⟨b, _, rfl⟩ := Option.map_eq_some_iff.1 h
       trivial)

theorem cArith_bin {F o ty x y z} (h : (cArith F).bin o ty x y = some z) : docBin F o ty x y = some z ∧ safeBinC false false o x y = true := by
  have h : (if safeBinC false false o x y then docBin F o ty x y else none) = some z := h
  split at h
  · rename_i h1; exact ⟨h, h1⟩
  · cases h

/-- With wide operands. -/
theorem safe_wide {o l r x y} (h : safeBinC false false o x y = true) (hn : narrowBin o l r = false) :
    safeBinC (narrow l) (narrow r) o x y = true := by
  unfold narrowBin at hn
  generalize narrow l = n at *
  generalize narrow r = m at *
  cases n <;> cases m
  · exact h
  all_goals
    cases o <;> first
      | (cases hn; done)
      | (cases x <;> cases y <;> exact h)

/- ### The program -/

/-- The variables of statements that are not in blocks. -/
def chainDefs : ATree → List (Nat × AExpr)
  | .node (.varDef id e) _ _ _ next => (id, e) :: chainDefs next
  | .node _ _ _ _ next => chainDefs next
  | _ => []

/-- A function that is only declared. -/
def isExternId (syms : List Symbol) (id : Nat) : Bool :=
  match syms[id]? with
  | some sym => match sym.kind with | .func f => f.isExternal | _ => false
  | none => false

section
variable {ω : Type}

/-- The statements of a function. -/
def bodyOf (c : RunCtx ω) (j : Nat) : ATree :=
  match (decls c.prog)[j]? with
  | some d => if isExternId c.syms d.1 then .nil else d.2.2
  | none => .nil

/-- The variables outside functions that are not in blocks. -/
def topIds (c : RunCtx ω) : List Nat := (chainDefs c.prog).map (·.1)

/-- The variables whose objects the first `k` functions can change. -/
def Chg (c : RunCtx ω) (k : Nat) (id : Nat) : Prop := id ∈ topIds c ∨ ∃ i, i < k ∧ id ∈ unknowns (bodyOf c i)

theorem Chg.mono {c : RunCtx ω} {k k' id} (h : Chg c k id) (hk : k ≤ k') : Chg c k' id :=
  h.imp (fun h => h) fun ⟨i, h1, h2⟩ => ⟨i, Nat.lt_of_lt_of_le h1 hk, h2⟩

/-- The variables that are objects outside functions, in C. -/
def IsObj (c : RunCtx ω) (id : Nat) : Prop := id ∈ topIds c ∨ ∃ i, id ∈ (chainDefs (bodyOf c i)).map (·.1)

/-- A variable with its type. -/
def varOf (syms : List Symbol) (id : Nat) : Option Variable :=
  match syms[id]? with
  | some sym => match sym.kind with | .var v => some v | _ => none
  | none => none

theorem varOf_some {syms : List Symbol} {id v} (h : varOf syms id = some v) : ∃ sym, syms[id]? = some sym ∧ sym.kind = .var v := by
  unfold varOf at h
  split at h
  · rename_i sym h1
    split at h
    · rename_i h2
      cases h
      exact ⟨sym, h1, h2⟩
    · cases h
  · cases h

theorem varOf_eq {syms : List Symbol} {id sym v} (h : syms[id]? = some sym) (hk : sym.kind = .var v) : varOf syms id = some v := by
  unfold varOf
  rw [h]
  simp only [hk]

theorem nameOf_eq {syms : List Symbol} {id sym} (h : syms[id]? = some sym) : nameOf syms id = sym.name := by
  unfold nameOf
  rw [h]

/-- What statements declare is not there yet, and is not something else. -/
def Sep (c : RunCtx ω) (K : CScope) (deep : Bool) : ATree → Prop
  | .nil => True
  | .unchecked _ => True
  | .node ann stmt _ child next =>
    match stmt, ann with
    | .varDef .., .varDef id e =>
      id ∉ K.autos ∧ id ∉ K.own ∧
      (if deep then id ∉ topIds c ∧ Sep c (K.push id) deep next
      else if K.self.isSome then
        id ∉ topIds c ∧ (∃ j, (id, e) ∈ chainDefs (bodyOf c j)) ∧ (∀ id', Chg c K.count id' → nameOf c.syms id' ≠ nameOf c.syms id) ∧
          (e.isConstExpr = false → Chg c (K.count + 1) id) ∧ Sep c (K.addObj id) deep next
      else (id, e) ∈ chainDefs c.prog ∧ id ∉ K.tops ∧ Sep c (K.addObj id) deep next)
    | .funcProto _, .func _ _ => Sep c { K with count := K.count + 1 } deep next
    | _, _ => Sep c K.inner true child ∧ Sep c K deep next

/-- The object of a variable. -/
structure ObjOk (c : RunCtx ω) (d : CRunCtx ω) (id : Nat) (v : Variable) : Prop where
  found : ∃ init, d.items.findSome? (objOf (nameOf c.syms id)) = some (v.isConst && v.constExpr == some true, cType v.type, init)

/-- What is known of a function. -/
structure FuncOk (c : RunCtx ω) (d : CRunCtx ω) (fmtA : Nat → List Char) (F : Floats) (j : Nat) (id : Nat) (ps : List Nat) (body : ATree) (sym : Symbol) (f : Func) :
    Prop where
  symbol : c.syms[id]? = some sym
  kind : sym.kind = .func f
  types : ∀ (i id : Nat) (ty : Ty), ps[i]? = some id → f.paramTypes[i]? = some ty → IsParam c.syms id ty
  length : ps.length = f.paramTypes.length
  nodup : ps.Nodup
  params : ∀ p ∈ ps, p ∉ topIds c ∧ nameOf c.syms p ∉ runTimeNames
  ext : f.isExternal = true → sym.linkageName = sym.name ∧ d.items.findSome? (funcOf sym.name) = none ∧
    ∃ cps, d.items.findSome? (externOf sym.name) = some (cType f.returnType, cps) ∧ ParamsOf c.syms ps cps
  code : f.isExternal = false → ∃ cps ss its tops, d.items.findSome? (funcOf sym.name) = some (cType f.returnType, cps, ss) ∧
    ParamsOf c.syms ps cps ∧ CForm c.syms fmtA 1 body ss its ∧ (∀ i ∈ tops, i ∈ topIds c) ∧
    fitsT F c.syms (decls c.prog) ⟨ps, ps, [], tops, j, some j, f.returnType⟩ false body = true ∧
    Sep c ⟨ps, ps, [], tops, j, some j, f.returnType⟩ false body ∧ WtTree c.syms false [] body ∧
    (∀ e ∈ body.exprs, FloatTexts fmtA ⟨fun _ => none, F, d.dbl⟩ e)

/-- What is known of the program. -/
structure Linked (c : RunCtx ω) (d : CRunCtx ω) (fmtA : Nat → List Char) (F : Floats) : Prop where
  arith : c.arith = cArith F
  floats : d.floats = F
  ext : d.ext = c.ext
  typed : ExtTyped c.syms c.ext
  inj : ∀ id id', IsObj c id → IsObj c id' → nameOf c.syms id = nameOf c.syms id' → id = id'
  obj : ∀ id, IsObj c id → ∃ v, varOf c.syms id = some v ∧ ObjOk c d id v
  known : ∀ id e, (id, e) ∈ chainDefs c.prog ∨ (∃ j, (id, e) ∈ chainDefs (bodyOf c j)) → e.isConstExpr = true →
    ∃ u cu, valueE (docArith F) (fun _ => none) e = some u ∧ literalOnly e = true ∧ cval u = some cu ∧ initial d (nameOf c.syms id) = some cu
  notRunTime : ∀ (j id : Nat) (ps : List Nat) (body : ATree), (decls c.prog)[j]? = some (id, ps, body) → nameOf c.syms id ∉ runTimeNames
  unknown : ∀ j id, id ∈ unknowns (bodyOf c j) → IsObj c id ∧ ∀ v, varOf c.syms id = some v → v.constExpr = some false
  func : ∀ (j id : Nat) (ps : List Nat) (body : ATree), (decls c.prog)[j]? = some (id, ps, body) → ∃ sym f, FuncOk c d fmtA F j id ps body sym f

/- ### Variables and objects -/

/-- The elements of two lists, one by one. -/
inductive All2 {α β : Type} (R : α → β → Prop) : List α → List β → Prop
  | nil : All2 R [] []
  | cons {a b l m} : R a b → All2 R l m → All2 R (a :: l) (b :: m)

/-- The value of a variable. -/
def valOf (L : Vars) (S : SState ω) (id : Nat) : Option Val := match L id with | some v => some v | none => S.vars id

/-- The types of variables. -/
def VTyped (syms : List Symbol) (L : Vars) : Prop := ∀ id u v, L id = some u → varOf syms id = some v → Typed v.type u

/-- The objects that live as long as the program. -/
structure RelG (c : RunCtx ω) (d : CRunCtx ω) (S : SState ω) (T : Store ω) : Prop where
  world : T.world = S.world
  tops : ∀ id, id ∈ topIds c → ∀ u, S.vars id = some u → ∃ cu, cval u = some cu ∧ T.objs (nameOf c.syms id) = some cu
  inits : ∀ id v, IsObj c id → varOf c.syms id = some v → v.constExpr = some true → (id ∈ topIds c → S.vars id = none) →
    T.objs (nameOf c.syms id) = initial d (nameOf c.syms id)
  typed : VTyped c.syms S.vars

/-- The object of a block that a variable is in. -/
def AutoRel (syms : List Symbol) (L : Vars) (S : SState ω) (id : Nat) (b : Auto) : Prop :=
  ∃ v u, varOf syms id = some v ∧ b.name = nameOf syms id ∧ (b.isConst = true → v.isConst = true) ∧ b.ty = cType v.type ∧
    valOf L S id = some u ∧ cval u = some b.val

/-- The objects of blocks, and those of the function. -/
structure RelL (c : RunCtx ω) (K : CScope) (L : Vars) (S : SState ω) (a : List Auto) (T : Store ω) : Prop where
  autos : All2 (AutoRel c.syms L S) K.autos a
  own : ∀ id ∈ K.own, ∃ u cu, L id = some u ∧ cval u = some cu ∧ T.objs (nameOf c.syms id) = some cu
  dom : ∀ id, (L id).isSome = true ↔ (K.self.isSome = true ∧ (id ∈ K.autos ∨ id ∈ K.own))
  undef : K.self = none → ∀ id ∈ topIds c, id ∉ K.tops → S.vars id = none
  typed : VTyped c.syms L

/-- What is known of the place of a statement. -/
structure KOk (c : RunCtx ω) (K : CScope) : Prop where
  self : ∀ j, K.self = some j → j = K.count
  autos : ∀ id ∈ K.autos, id ∉ topIds c
  autosNot : ∀ id ∈ K.autos, nameOf c.syms id ∉ runTimeNames
  nodup : K.autos.Nodup
  tops : ∀ id ∈ K.tops, id ∈ topIds c
  top : K.self = none → K.own = []
  ownTop : ∀ id ∈ K.own, id ∉ topIds c
  ownAuto : ∀ id ∈ K.own, id ∉ K.autos
  ownObj : ∀ id ∈ K.own, IsObj c id
  ownSep : ∀ id ∈ K.own, ∀ id', Chg c K.count id' → nameOf c.syms id' ≠ nameOf c.syms id
  ownKind : ∀ id ∈ K.own, isKnownConst c.syms id = true ∨ Chg c (K.count + 1) id

/-- What functions before the `k`-th one leave alone. -/
structure Frame (c : RunCtx ω) (k : Nat) (S : SState ω) (T : Store ω) (S' : SState ω) (T' : Store ω) : Prop where
  vars : ∀ id, id ∉ topIds c → S'.vars id = S.vars id
  undef : ∀ id, S.vars id = none → S'.vars id = none
  objs : ∀ x, (∀ id, Chg c k id → nameOf c.syms id ≠ x) → T'.objs x = T.objs x

theorem Frame.refl {c : RunCtx ω} {k S T} : Frame c k S T S T := ⟨fun _ _ => rfl, fun _ h => h, fun _ _ => rfl⟩

theorem Frame.trans {c : RunCtx ω} {k S T S' T' S'' T''} (h : Frame c k S T S' T') (h' : Frame c k S' T' S'' T'') : Frame c k S T S'' T'' :=
  ⟨fun id hi => (h'.vars id hi).trans (h.vars id hi), fun id hi => h'.undef id (h.undef id hi),
    fun x hx => (h'.objs x hx).trans (h.objs x hx)⟩

theorem Frame.mono {c : RunCtx ω} {k k' S T S' T'} (h : Frame c k S T S' T') (hk : k ≤ k') : Frame c k' S T S' T' :=
  ⟨h.vars, h.undef, fun x hx => h.objs x fun id hi => hx id (hi.mono hk)⟩

theorem All2.imp {α β : Type} {R Q : α → β → Prop} : ∀ {l : List α} {m : List β}, All2 R l m → (∀ a ∈ l, ∀ b, R a b → Q a b) →
    All2 Q l m
  | _, _, .nil, _ => .nil
  | _, _, .cons h t, hi => .cons (hi _ (List.mem_cons_self ..) _ h) (t.imp fun a ha => hi a (List.mem_cons_of_mem _ ha))

/-- Calls leave the objects of blocks alone, and those of the function. -/
theorem RelL.frame {c : RunCtx ω} {K L S a T S' T'} (h : RelL c K L S a T) (hk : KOk c K) (hf : Frame c K.count S T S' T') :
    RelL c K L S' a T' := by
  refine ⟨h.autos.imp ?_, ?_, h.dom, fun h1 id h2 h3 => hf.undef id (h.undef h1 id h2 h3), h.typed⟩
  · rintro id hid b ⟨v, u, h1, h2, h3, h4, h5, h6⟩
    refine ⟨v, u, h1, h2, h3, h4, ?_, h6⟩
    unfold valOf at h5 ⊢
    rw [hf.vars id (hk.autos id hid)]
    exact h5
  · intro id hid
    obtain ⟨u, cu, h1, h2, h3⟩ := h.own id hid
    exact ⟨u, cu, h1, h2, by rw [hf.objs _ (hk.ownSep id hid)]; exact h3⟩

/- ### Enough steps -/

/-- With enough steps. -/
def Soon (P : Nat → Prop) : Prop := ∃ m, ∀ m', m ≤ m' → P m'

theorem Soon.of {P : Nat → Prop} (h : ∀ m, P (m + 1)) : Soon P :=
  ⟨1, fun m hm => by obtain ⟨k, rfl⟩ := Nat.exists_eq_add_of_le' hm; exact h k⟩

theorem Soon.step {P Q : Nat → Prop} (h : Soon P) (hi : ∀ m, P m → Q (m + 1)) : Soon Q := by
  obtain ⟨m, hm⟩ := h
  refine ⟨m + 1, fun m' h' => ?_⟩
  obtain ⟨k, rfl⟩ : ∃ k, m' = k + 1 := ⟨m' - 1, by omega⟩
  exact hi k (hm k (by omega))

theorem Soon.and {P Q : Nat → Prop} (h : Soon P) (h' : Soon Q) : Soon fun m => P m ∧ Q m := by
  obtain ⟨m, hm⟩ := h
  obtain ⟨m₂, hm₂⟩ := h'
  exact ⟨max m m₂, fun k hk => ⟨hm k (by omega), hm₂ k (by omega)⟩⟩

theorem Soon.step₂ {P Q R : Nat → Prop} (h : Soon P) (h' : Soon Q) (hi : ∀ m, P m → Q m → R (m + 1)) : Soon R :=
  (h.and h').step fun m hm => hi m hm.1 hm.2

end

end Skull.CSim
