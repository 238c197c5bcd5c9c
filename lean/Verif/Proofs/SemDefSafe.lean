import Verif.Proofs.SemDefined
import Verif.Props.Literal
import Verif.Props.Paths
/-
Statements of source texts are safe.
-/
namespace Skull.SemDef

open Skull.Spec

/-- What the tokens of a source are like. -/
structure Good (cfg : Cfg) (t : Token) : Prop where
  spelled : Spelled t
  lit : isLiteral t = true → LitSafe cfg t
  name : t.ty = .identifier ∨ t.ty = .newIdentifier → Named cfg t

theorem items_leaf {t : Token} : ∀ {l : List Token}, ExprItem.leaf t ∈ items l → t ∈ l ∧ t.ty ≠ .operRef
  | [], h => by cases h
  | u :: us, h => by
    unfold items at h
    split at h
    · exact ⟨.tail _ (items_leaf h).1, (items_leaf h).2⟩
    · split at h
      · rename_i hl
        rcases List.mem_cons.mp h with e | h
        · cases e
          refine ⟨.head _, fun hr => ?_⟩
          simp [isName, isLiteral, hr] at hl
        · exact ⟨.tail _ (items_leaf h).1, (items_leaf h).2⟩
      · rcases List.mem_cons.mp h with e | h
        · cases e
        · exact ⟨.tail _ (items_leaf h).1, (items_leaf h).2⟩

mutual
theorem safe_expr {cfg : Cfg} : ∀ (e : Expr), (∀ t, ExprItem.leaf t ∈ readExpr e → Good cfg t) → LeavesOf e → OpersOf e →
    whole e = true → ExprSafe cfg e
  | .missing, _, _, _, h => by cases h
  | .ident t, h, _, _, _ => (h t (by simp [readExpr])).spelled
  | .const t, h, hl, _, _ => (h t (by simp [readExpr])).lit hl
  | .call n as _, h, hl, ho, hm => ⟨(h n (by simp [readExpr])).spelled,
      safe_args as (fun t ht => h t (by simp [readExpr, ht])) hl.2 ho hm⟩
  | .un o e, h, hl, ho, hm => ⟨by
      obtain ⟨ty, h1, rfl⟩ := ho.1
      revert h1
      cases ty <;> decide, safe_expr e (fun t ht => h t (by simp [readExpr, ht])) hl ho.2 hm⟩
  | .bin o l r, h, hl, ho, hm => ⟨by
      obtain ⟨ty, h1, rfl⟩ := ho.1
      revert h1
      cases ty <;> decide,
      safe_expr l (fun t ht => h t (by simp [readExpr, ht])) hl.1 ho.2.1 (by simp only [whole, Bool.and_eq_true] at hm; exact hm.1),
      safe_expr r (fun t ht => h t (by simp [readExpr, ht])) hl.2 ho.2.2 (by simp only [whole, Bool.and_eq_true] at hm; exact hm.2)⟩
theorem safe_args {cfg : Cfg} : ∀ (as : Args), (∀ t, ExprItem.leaf t ∈ readArgs as → Good cfg t) → LeavesOfArgs as → OpersOfArgs as →
    wholeArgs as = true → ArgsSafe cfg as
  | .nil, _, _, _, _ => trivial
  | .cons _ e r, h, hl, ho, hm =>
    ⟨safe_expr e (fun t ht => h t (by simp [readArgs, ht])) hl.1 ho.1 (by simp only [wholeArgs, Bool.and_eq_true] at hm; exact hm.1),
      safe_args r (fun t ht => h t (by simp [readArgs, ht])) hl.2 ho.2 (by simp only [wholeArgs, Bool.and_eq_true] at hm; exact hm.2)⟩
end

/-- An expression has a name or a literal. -/
theorem safe_leaf {cfg : Cfg} : ∀ {e : Expr}, ExprSafe cfg e → ∃ t, ExprItem.leaf t ∈ readExpr e
  | .missing, h => h.elim
  | .ident t, _ => ⟨t, by simp [readExpr]⟩
  | .const t, _ => ⟨t, by simp [readExpr]⟩
  | .call n as _, _ => ⟨n, by simp [readExpr]⟩
  | .un o e, h => by
    obtain ⟨t, ht⟩ := safe_leaf h.2
    exact ⟨t, by simp [readExpr, ht]⟩
  | .bin o l r, h => by
    obtain ⟨t, ht⟩ := safe_leaf h.2.1
    exact ⟨t, by simp [readExpr, ht]⟩

theorem safe_exprOf {cfg ex e} (hg : ∀ t ∈ ex, Good cfg t) (h : ExprOf ex e) (hm : whole e = true) :
    ExprSafe cfg e ∧ ∃ t ∈ ex, t.ty ≠ .operRef := by
  obtain ⟨_, h1, _, h2, h3⟩ := h
  have hs : ExprSafe cfg e := safe_expr e (fun t ht => hg t (items_leaf (h1 ▸ ht)).1) h2 h3 hm
  obtain ⟨t, ht⟩ := safe_leaf hs
  exact ⟨hs, t, items_leaf (h1 ▸ ht)⟩

theorem typed_of {cfg l} (hg : ∀ t ∈ l, Good cfg t) {t : Token} (ht : t ∈ l) (hne : t.ty ≠ .operRef) : Typed l :=
  ⟨fun u hu => (hg u hu).spelled, t, ht, hne⟩

theorem typeOf_token {ty : List Token} (h : TypeOf ty) : ∃ t ∈ ty, t.ty ≠ .operRef := by
  induction h with
  | @name t h =>
    refine ⟨t, .head _, fun hr => ?_⟩
    simp [isName, hr] at h
  | ref _ _ ih =>
    obtain ⟨t, h1, h2⟩ := ih
    exact ⟨t, .tail _ h1, h2⟩

theorem typed_type {cfg ty ts} (hg : ∀ t ∈ ty ++ ts, Good cfg t) (h : TypeOf ty) : Typed (ty ++ ts) := by
  obtain ⟨t, h1, h2⟩ := typeOf_token h
  exact typed_of hg (List.mem_append_left _ h1) h2

theorem typeOf_only {ty : List Token} (h : TypeOf ty) : ∀ {ty' a b : List Token}, TypeOf ty' → ty ++ a = ty' ++ b → a = b := by
  induction h with
  | @name t h =>
    intro ty' a b h' he
    cases h' with
    | name => simp at he; exact he.2
    | ref hr _ =>
      simp only [List.cons_append, List.nil_append, List.cons.injEq] at he
      rw [← he.1] at hr
      simp [isName, hr] at h
  | @ref t ts hr _ ih =>
    intro ty' a b h' he
    cases h' with
    | name h =>
      simp only [List.cons_append, List.nil_append, List.cons.injEq] at he
      rw [← he.1] at h
      simp [isName, hr] at h
    | ref _ h' =>
      simp only [List.cons_append, List.cons.injEq] at he
      exact ih h' he.2

theorem params_of {cfg a b ps} (h : ParamsOf a b ps) : (∀ t ∈ a, Good cfg t) → ∀ q ∈ ps, Typed q.type ∧ Named cfg q.name := by
  induction h with
  | none => intro _ q hq; cases hq
  | @last n ty ts hn hty =>
    intro hg q hq
    simp only [List.mem_singleton] at hq
    subst hq
    exact ⟨typed_type (fun t ht => hg t (.tail _ ht)) hty, (hg n (.head _)).name (.inr hn)⟩
  | @more n c ty ts rest ps hn hty hc _ ih =>
    intro hg q hq
    cases hq with
    | head => exact ⟨typed_type (fun t ht => hg t (.tail _ ht)) hty, (hg n (.head _)).name (.inr hn)⟩
    | tail _ hq => exact ih (fun t ht => hg t (.tail _ (List.mem_append_right _ (.tail _ ht)))) q hq

theorem params_end {a b ps} (h : ParamsOf a b ps) : ∀ t ∈ b, t ∈ a := by
  induction h with
  | none => exact fun t h => h
  | last => intro t ht; exact .tail _ (List.mem_append_right _ ht)
  | more _ _ _ _ ih => intro t ht; exact .tail _ (List.mem_append_right _ (.tail _ (ih t ht)))

/-- A definition. -/
theorem def_safe {cfg : Cfg} {mark name te ex : List Token} {n q : Token} {r : List Token} {e : Expr} {cst exported imp : Bool}
    (hmark : DeclMark mark cst exported) (hg : ∀ t ∈ mark ++ name, Good cfg t) (hname : name = n :: q :: r) (hte : ∀ t ∈ te.tail, t ∈ name)
    (hn : n.ty = .identifier ∨ n.ty = .newIdentifier) (hex : ExprOf ex e) (hm : whole e = true) (hr : ∀ t ∈ ex, t ∈ r)
    (hex' : ∀ t ∈ ex, t ∈ te.tail) : StmtSafe cfg (.varDef name cst imp exported e) (mark ++ name) te := by
  have hgn : ∀ t ∈ name, Good cfg t := fun t ht => hg t (List.mem_append_right _ ht)
  have hrn : ∀ t ∈ r, t ∈ name := fun t ht => by rw [hname]; exact .tail _ (.tail _ ht)
  obtain ⟨hs, u, hu, hne⟩ := safe_exprOf (fun t ht => hgn t (hrn t (hr t ht))) hex hm
  subst hname
  refine ⟨by simp, ⟨n, q :: r, rfl, (hgn n (.head _)).name hn⟩, typed_of (fun t ht => hgn t (.tail _ ht)) (.tail _ (hr u hu)) hne,
    typed_of (fun t ht => hgn t (hte t ht)) (hex' u hu) hne, ?_, ?_, hs⟩
  · refine typed_of (fun t ht => hg t ?_) ?_ hne (t := u)
    · exact List.mem_of_mem_tail (List.mem_of_mem_tail ht)
    · cases hmark with
      | none => exact hr u hu
      | «mut» => exact .tail _ (hr u hu)
      | «export» => exact .tail _ (hr u hu)
  · cases hmark with
    | none => exact ⟨n, _, rfl, (hgn n (.head _)).spelled⟩
    | @«mut» t => exact ⟨t, _, rfl, (hg t (.head _)).spelled⟩
    | @«export» t => exact ⟨t, _, rfl, (hg t (.head _)).spelled⟩

theorem written_safe {cfg : Cfg} {tok ts te : List Token} {st : Stmt} (h : Written tok ts st) (hv : ValueAt st te) (hg : ∀ t ∈ tok, Good cfg t)
    (hm : ∀ e, stmtExpr st = some e → st ≠ .ret .missing → whole e = true) : StmtSafe cfg st tok te := by
  have ex : ∀ {t : Token} {ex ts : List Token} {e : Expr}, (∀ u ∈ t :: (ex ++ ts), Good cfg u) → ExprOf ex e → whole e = true →
      ExprSafe cfg e := fun hg he hm => (safe_exprOf (fun u hu => hg u (.tail _ (List.mem_append_left _ hu))) he hm).1
  cases h with
  | «return» => exact ⟨by simp, .inl rfl⟩
  | @returnExpr _ _ _ e h1 h2 =>
    refine ⟨by simp, ?_⟩
    by_cases he : e = .missing
    · exact .inl he
    · exact .inr (ex hg h2 (hm e rfl (by simpa using he)))
  | «if» h1 h2 => exact ⟨by simp, ex hg h2 (hm _ rfl (by simp))⟩
  | elif h1 h2 => exact ⟨by simp, ex hg h2 (hm _ rfl (by simp))⟩
  | «while» h1 h2 => exact ⟨by simp, ex hg h2 (hm _ rfl (by simp))⟩
  | «else» => exact ⟨by simp, trivial⟩
  | «unreachable» => exact ⟨by simp, trivial⟩
  | comment => exact ⟨by simp, trivial⟩
  | noop => exact ⟨by simp, trivial⟩
  | «break» => exact ⟨by simp, trivial⟩
  | «continue» => exact ⟨by simp, trivial⟩
  | @«namespace» t n => exact ⟨by simp, t, n, _, rfl, (hg n (.tail _ (.head _))).spelled⟩
  | @«import» t n => exact ⟨by simp, t, n, _, rfl, (hg n (.tail _ (.head _))).spelled⟩
  | @assign n q ex ts e h1 h2 h3 =>
    exact ⟨by simp, ⟨n, _, rfl, (hg n (.head _)).spelled⟩,
      (safe_exprOf (fun u hu => hg u (.tail _ (.tail _ (List.mem_append_left _ hu)))) h3 (hm _ rfl (by simp))).1⟩
  | @expr ex ts e h1 =>
    obtain ⟨hs, u, hu, _⟩ := safe_exprOf (fun u hu => hg u (List.mem_append_left _ hu)) h1 (hm _ rfl (by simp))
    refine ⟨?_, hs⟩
    intro he
    rw [List.append_eq_nil_iff] at he
    rw [he.1] at hu
    cases hu
  | @implicit mark n q ex ts cst exported e h1 h2 h3 h4 =>
    obtain ⟨n', ty, k1, k2, k3⟩ := hv
    rw [k2 rfl] at k1
    simp only [List.nil_append, List.cons.injEq] at k1
    obtain ⟨_, rfl⟩ := k1
    exact def_safe h1 hg rfl (fun t ht => .tail _ (.tail _ ht)) (.inl h2) h4 (hm _ rfl (by simp))
      (fun t ht => List.mem_append_left _ ht) (fun t ht => List.mem_append_left _ ht)
  | @explicit mark n sep ty ex ts cst exported e h1 h2 h3 h4 =>
    obtain ⟨n', ty', k1, k2, k3⟩ := hv
    simp only [List.cons.injEq] at k1
    obtain ⟨_, k1⟩ := k1
    have k4 := typeOf_only h3 (k3 rfl) k1
    subst k4
    obtain ⟨q, r, hq⟩ : ∃ q r, ty = q :: r := by cases h3 <;> exact ⟨_, _, rfl⟩
    subst hq
    exact def_safe h1 hg rfl (fun t ht => .tail _ (List.mem_append_right _ (.tail _ ht))) (.inr h2) h4 (hm _ rfl (by simp))
      (fun t ht => List.mem_append_right _ (.tail _ (List.mem_append_left _ ht))) (fun t ht => List.mem_append_left _ ht)
  | @func mark n opn close ps ts rt ext exported params ret h1 h2 h3 h4 h5 h6 h7 =>
    have hgp : ∀ t ∈ ps, Good cfg t := fun t ht => hg t (List.mem_append_right _ (.tail _ (.tail _ ht)))
    have hgr : ∀ t ∈ rt, Good cfg t := fun t ht => hgp t (params_end h4 t (.tail _ ht))
    refine ⟨by simp, (hg n (List.mem_append_right _ (.head _))).name (.inl h2), ?_, fun q hq => ?_⟩
    · intro r hr
      simp only at hr
      cases h6 with
      | none => cases hr
      | some hty => cases hr; exact typed_type hgr hty
    · exact params_of h4 hgp q (List.mem_of_mem_take hq)

theorem noneMissing_node {stmt tok te child next} (h : noneMissing (.node stmt tok te child next) = true) :
    (∀ e, stmtExpr stmt = some e → stmt ≠ .ret .missing → whole e = true) ∧ noneMissing child = true ∧ noneMissing next = true := by
  simp only [noneMissing, Bool.and_eq_true] at h
  obtain ⟨⟨h1, h2⟩, h3⟩ := h
  refine ⟨fun e he hne => ?_, h2, h3⟩
  split at h1
  · exact absurd rfl hne
  · rw [he] at h1
    exact h1

theorem nodes_safe {cfg : Cfg} {toks : List Token} (hg : ∀ t ∈ toks, Good cfg t) : ∀ {t : Tree}, AllNodes (PlacedIn toks) t → noneMissing t = true →
    AllNodes (StmtSafe cfg) t
  | .nil, _, _ => trivial
  | .node stmt tok te child next, h, hm => by
    obtain ⟨⟨⟨pre, h1⟩, ⟨ts, h2⟩, h3⟩, hc, hn⟩ := h
    have hm := noneMissing_node hm
    exact ⟨written_safe h2 h3 (fun t ht => hg t (by rw [h1]; exact List.mem_append_right _ ht)) hm.1, nodes_safe hg hc hm.2.1,
      nodes_safe hg hn hm.2.2⟩

theorem root_safe {cfg : Cfg} {toks hd : List Token} (hg : ∀ t ∈ toks, Good cfg t) {t : Tree} (h : RootIn toks hd t) (hm : noneMissing t = true) :
    AllNodes (StmtSafe cfg) t ∨ ∃ hd ch, t = .node .unknown hd [] ch .nil ∧ AllNodes (StmtSafe cfg) ch := by
  rcases h with h | ⟨ch, rfl, h⟩
  · exact .inl (nodes_safe hg h hm)
  · exact .inr ⟨_, _, rfl, nodes_safe hg h (noneMissing_node hm).2.1⟩

/- ### Tokens -/

theorem evalLit_def {α} {t : Token} {e : Ev α} (h : e ≠ .ub) (s : SS) : evalLit t e s ≠ .ub := by
  cases e <;> first | exact absurd rfl h | exact def_error _ _ _ | exact def_pure _ _

theorem litSafe {cfg : Cfg} {src : List Char} {t : Token} (h : Compiled src t) (hf : litFits t = true) : LitSafe cfg t := by
  intro s
  obtain ⟨h1, h2, h3, h4⟩ := C15_memory_partial src t h
  unfold validateConst
  cases hty : t.ty with
  | intConst =>
    refine def_bind (evalLit_def ?_ s) fun _ _ _ => def_pure _ _
    obtain ⟨text, after, ⟨k1, k2⟩, k3⟩ := h1 hty
    intro hu
    obtain ⟨k4, k5⟩ := k3.1 hu
    obtain ⟨x, u, rfl, hx⟩ := k5
    unfold litFits at hf
    rw [hty, k1] at hf
    simp only [k2, List.take_left, List.drop_left, k4] at hf
    simp only [List.mem_cons, List.not_mem_nil, or_false] at hx
    rcases hx with rfl | rfl | rfl <;> simp at hf
  | floatConst => exact def_bind (evalLit_def (h2 hty _ _ _ _ _) s) fun _ _ _ => def_pure _ _
  | boolConst => exact def_pure _ _
  | runeConst =>
    refine def_bind (evalLit_def ?_ s) fun _ _ _ => def_pure _ _
    obtain ⟨c, text, after, ⟨k1, k2⟩, k3⟩ := h4 hty
    intro hu
    have := k3.1 hu
    unfold litFits at hf
    rw [hty, k1] at hf
    simp at hf
    omega
  | strConst =>
    refine def_bind (evalLit_def ?_ s) fun _ _ _ => ?_
    · cases he : evalStr t with
      | none => exact absurd he (h3 hty).2
      | some v =>
        intro hu
        exact (h3 hty).1 (by rw [he]; exact congrArg some hu)
    · unfold toBytes
      split
      · exact def_pure _ _
      · exact def_error _ _ _
  | _ => exact def_stop _

theorem varName_nul {x : List Char} (h : VarName x) : NulFree x := by
  have hl : ∀ {c : Char}, Letter c → c ≠ '\x00' := by
    rintro c h rfl
    revert h
    unfold Letter
    decide
  have hd : ∀ {c : Char}, Digit c → c ≠ '\x00' := by
    rintro c h rfl
    revert h
    unfold Digit
    decide
  obtain ⟨c, body, hc, hb, h⟩ := h
  have hbody : '\x00' ∉ c :: body := by
    intro hm
    rcases List.mem_cons.mp hm with e | hm
    · exact hl hc e.symm
    · rcases hb _ hm with h | h | h | h
      · exact hl h rfl
      · exact hd h rfl
      · cases h
      · cases h
  rcases h with ⟨rfl, _⟩ | rfl
  · exact hbody
  · intro hm
    rw [← List.cons_append, List.mem_append] at hm
    rcases hm with h | h
    · exact hbody h
    · simp at h

theorem text_length {t : Token} {x : List Char} (h : Text t x) : x.length ≤ t.len := by
  unfold Text tokenToString at h
  split at h
  · cases h
  · cases h
    simp
    omega

theorem good_token {cfg : Cfg} {w : Bool} {src : List Char} {ts toks : List Token} (h1 : tokenize w src = some (.ok ts))
    (h2 : classifyTokens ts = some toks) (hf : FileFits cfg.filename src.length) {t : Token} (ht : t ∈ toks)
    (hl : litFits t = true) : Good cfg t := by
  have hr := real_token h1 h2 ht
  obtain ⟨t0, hm, hc⟩ := SemHeap.classify_mem h2 t ht
  refine ⟨hr.text, fun _ => litSafe ⟨w, ts, t0, h1, hm, hc⟩ hl, fun hn => ?_⟩
  obtain ⟨x, hx⟩ := hr.text
  have hv := (varName_iff x).1 (hr.name hn x hx)
  refine ⟨x, hx, hv, ?_⟩
  obtain ⟨dir, m, e, k1, k2, k3, k4⟩ := hf
  have := text_length hx
  have := hr.short
  rw [e, C21_linkage_name dir m x k1 k2 k3 (varName_nul hv) (by omega)]
  simp

/-- The check of a source text is defined. -/
theorem source_defined {cfg : Cfg} {w : Bool} {src : List Char} {ts toks : List Token} {t : Tree} {s : PS} (h1 : tokenize w src = some (.ok ts))
    (h2 : classifyTokens ts = some toks) (h3 : parseAstTree toks = .ok (some t) s) (hc : Counted t) (hf : FileFits cfg.filename src.length)
    (hl : ∀ u ∈ toks, litFits u = true) (hb : cfg.quiet = true ∨ callsNoFuncs t = true) (hm : noneMissing t = true) (hv : VarsOnly (cfg.world False) t) :
    semantic cfg t ≠ .ub := by
  have hg : ∀ u ∈ toks, Good cfg u := fun u hu => good_token h1 h2 hf hu (hl u hu)
  refine program_defined (W := cfg.world False) ⟨rfl, fun _ => Iff.rfl, fun h => h⟩ (fun h => h) ?_ hc hb (root_safe hg (parsed_in h3) hm) hv
  obtain ⟨dir, m, e, k1, k2, k3, k4⟩ := hf
  rw [e, C21_entry_name dir m k1 k2 k3 (by omega)]
  rfl

end Skull.SemDef
