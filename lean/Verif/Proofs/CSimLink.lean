import Verif.Proofs.CSimStatic
/-
The C form of a program does what the program does: the file is a valid C program, and what `main` does.
-/
namespace Skull.CSim
open Spec Spec.C

/- ### Names are unique -/

theorem find_unique {α : Type} {g : C.Item → Option α} {x : List Char} (hg : ∀ i, (g i).isSome = true → x ∈ defined i) :
    ∀ {items : List C.Item}, (items.flatMap defined).Nodup → ∀ {i}, i ∈ items → x ∈ defined i → items.findSome? g = g i := by
  intro items
  induction items with
  | nil => intro _ i hi; cases hi
  | cons h l ih =>
    intro hn i hi hx
    rw [List.flatMap_cons, List.nodup_append] at hn
    rw [List.findSome?_cons]
    rcases List.mem_cons.1 hi with rfl | hi
    · cases hgi : g i with
      | some v => rfl
      | none =>
        simp only
        rw [List.findSome?_eq_none_iff]
        intro j hj
        cases hgj : g j with
        | none => rfl
        | some v =>
          have h1 := hg j (by rw [hgj]; rfl)
          exact absurd rfl (hn.2.2 x hx x (List.mem_flatMap.2 ⟨j, hj, h1⟩))
    · cases hgh : g h with
      | some v =>
        have h1 := hg h (by rw [hgh]; rfl)
        exact absurd rfl (hn.2.2 x h1 x (List.mem_flatMap.2 ⟨i, hi, hx⟩))
      | none => exact ih hn.2.1 hi hx

theorem objOf_defined {x i} (h : (objOf x i).isSome = true) : x ∈ defined i := by
  cases i with
  | object st k ty y link init =>
    simp only [objOf] at h
    split at h
    · rename_i he; simp [defined, he]
    · cases h
  | proto => cases h
  | func => cases h

theorem funcOf_defined {x i} (h : (funcOf x i).isSome = true) : x ∈ defined i := by
  cases i with
  | func st ty g ps body =>
    simp only [funcOf] at h
    split at h
    · rename_i he; simp [defined, he]
    · cases h
  | proto => cases h
  | object => cases h

theorem externOf_defined {x i} (h : (externOf x i).isSome = true) : x ∈ defined i := by
  cases i with
  | proto st ty g ps link =>
    cases link with
    | some l => cases h
    | none =>
      simp only [externOf] at h
      split at h
      · rename_i he; simp [defined, he]
      · cases h
  | func => cases h
  | object => cases h

theorem inj_of_nodup {α β : Type} {f : α → β} : ∀ {l : List α}, (l.map f).Nodup → ∀ x y, x ∈ l → y ∈ l → f x = f y → x = y := by
  intro l
  induction l with
  | nil => intro _ x y hx; cases hx
  | cons a l ih =>
    intro hn x y hx hy he
    rw [List.map_cons, List.nodup_cons] at hn
    rcases List.mem_cons.1 hx with h1 | h1 <;> rcases List.mem_cons.1 hy with h2 | h2
    · rw [h1, h2]
    · subst h1
      exact absurd (List.mem_map.2 ⟨y, h2, he.symm⟩) hn.1
    · subst h2
      exact absurd (List.mem_map.2 ⟨x, h1, he⟩) hn.1
    · exact ih hn.2 x y h1 h2 he

theorem nodup_of_map {α β : Type} {f : α → β} : ∀ {l : List α}, (l.map f).Nodup → l.Nodup := by
  intro l
  induction l with
  | nil => intro _; exact List.nodup_nil
  | cons a l ih =>
    intro hn
    rw [List.map_cons, List.nodup_cons] at hn
    exact List.nodup_cons.2 ⟨fun h => hn.1 (List.mem_map.2 ⟨a, h, rfl⟩), ih hn.2⟩

/- ### Initial values -/

theorem typed_value {syms : List Symbol} {F ρ} : ∀ {e : AExpr} {u}, WtE syms e → literalOnly e = true → valueE (docArith F) ρ e = some u → Typed e.type u
  | .const t v, u, _, _, hv => by simp only [valueE] at hv; cases hv; exact typed_const v
  | .ident .., u, _, hl, _ => by cases hl
  | .call .., u, _, hl, _ => by cases hl
  | .un o r ty k, u, hw, hl, hv => by
    simp only [valueE] at hv
    split at hv
    · cases hw with
      | un h1 _ => exact typed_un hv h1
      | ref _ => cases hl
      | deref _ => cases hl
    · cases hv
  | .bin o l r ty k, u, hw, hl, hv => by
    simp only [valueE] at hv
    split at hv
    · cases hw with
      | bin _ _ _ h1 _ => exact typed_bin hv h1
    · cases hv

theorem reads_constant {syms : List Symbol} {fmtA e cx} (h : Reads syms fmtA e cx) : literalOnly e = true → e.someBin comparesStr = false →
    e.someBin powsInt = false → e.someBin powsFloat = false → constant cx = true := by
  induction h using Reads.rec (motive_2 := fun _ _ _ => True) with
  | paren _ ih => exact ih
  | ident => intro h; cases h
  | const hc => intros; cases hc <;> rfl
  | call => intro h; cases h
  | un _ _ ih =>
    intro h1 h2 h3 h4
    unfold constant
    exact ih h1 h2 h3 h4
  | bin _ _ _ _ ihl ihr =>
    intro h1 h2 h3 h4
    simp only [literalOnly, Bool.and_eq_true] at h1
    simp only [AExpr.someBin, Bool.or_eq_false_iff] at h2 h3 h4
    unfold constant
    rw [ihl h1.1 h2.1.2 h3.1.2 h4.1.2, ihr h1.2 h2.2 h3.2 h4.2]
    rfl
  | strIs ht =>
    intro _ h2
    simp only [AExpr.someBin, Bool.or_eq_false_iff] at h2
    have := h2.1.1
    rw [comparesStr, ht] at this
    cases this
  | strIsnt ht =>
    intro _ h2
    simp only [AExpr.someBin, Bool.or_eq_false_iff] at h2
    have := h2.1.1
    rw [comparesStr, ht] at this
    cases this
  | intPow =>
    intro _ _ h2
    simp only [AExpr.someBin, Bool.or_eq_false_iff] at h2
    cases h2.1.1
  | floatPow =>
    intro _ _ _ h2
    simp only [AExpr.someBin, Bool.or_eq_false_iff] at h2
    cases h2.1.1
  | nil => trivial
  | cons => trivial

theorem constant_names : ∀ {e : Exp}, constant e = true → e.names = []
  | .num _, _ => rfl
  | .str _, _ => rfl
  | .paren e, h => by unfold constant at h; simp only [Exp.names]; exact constant_names h
  | .un _ e, h => by unfold constant at h; simp only [Exp.names]; exact constant_names h
  | .bin _ l r, h => by
    unfold constant at h
    rw [Bool.and_eq_true] at h
    simp only [Exp.names, constant_names h.1, constant_names h.2, List.append_nil]
  | .id _, h => by cases h
  | .call _ _, h => by cases h

section
variable {ω : Type} {c : RunCtx ω} {d : CRunCtx ω} {fmtA : Nat → List Char} {F : Floats}

theorem KnownAt.constant {id e cx} (h : KnownAt c d fmtA F id e cx) : constant cx = true := reads_constant h.reads h.literal h.noStr h.noInt h.noFloat

theorem known_initial (hf : d.floats = F) (hn : (d.items.flatMap defined).Nodup) {id e sym v cx st k link} (hd : DefAt c id e sym v) (hk : KnownAt c d fmtA F id e cx)
    (hi : .object st k (cType v.type) sym.name link (some cx) ∈ d.items) :
    ∃ u cu, valueE (docArith F) (fun _ => none) e = some u ∧ cval u = some cu ∧ initial d sym.name = some cu := by
  obtain ⟨u, hu⟩ := Option.isSome_iff_exists.1 hk.val
  have hag : Agree c.syms (fun _ => none) ⟨fun _ => none, F, d.dbl⟩ e := fun _ _ _ _ _ h => by cases h
  obtain ⟨x, hx, hs⟩ := reads_value (E := ⟨fun _ => none, F, d.dbl⟩) hk.reads hk.wt hag hk.texts hk.safe hu
  obtain ⟨cu, h1, h2⟩ := convert_stands hs.1 (by rw [hd.type]; exact typed_value hk.wt hk.literal hu : Typed v.type u)
  refine ⟨u, cu, hu, h1, ?_⟩
  unfold initial
  rw [find_unique (fun i h => objOf_defined h) hn hi (by simp [defined]), hf]
  simp only [objOf, if_true, hx, h2]

theorem object_found (hn : (d.items.flatMap defined).Nodup) {id e} (h : ObjAt c d fmtA F d.items id e) :
    ∃ v, varOf c.syms id = some v ∧ v.constExpr = some e.isConstExpr ∧ ObjOk c d id v := by
  obtain ⟨sym, v, h1, h2⟩ := h
  refine ⟨v, varOf_eq h1.symbol h1.kind, h1.known, ?_⟩
  have hk := h1.known
  rcases h2 with ⟨h2, st, cx, link, _, h3⟩ | ⟨h2, st, link, h3⟩
  · refine ⟨some cx, ?_⟩
    rw [nameOf_eq h1.symbol, find_unique (fun i h => objOf_defined h) hn h3 (by simp [defined])]
    simp [objOf, hk, h2]
  · refine ⟨none, ?_⟩
    rw [nameOf_eq h1.symbol, find_unique (fun i h => objOf_defined h) hn h3 (by simp [defined])]
    simp [objOf, hk, h2]

/-- Before the program. -/
def cstart : CScope := ⟨[], [], [], [], 0, none, .prim .int⟩

theorem TopInv.start (hdefs : c.prog.defs.Nodup) (hfile : (fileIds c.prog).Nodup) : TopInv c cstart c.prog :=
  ⟨rfl, rfl, rfl, hdefs, fun _ _ h => (by cases h), fun _ h => (by cases h), fun _ h => .inr h, fun _ h => h, hfile, fun _ h => h,
    fun i h => by cases h⟩

theorem linked_of (ha : c.arith = cArith F) (hf : d.floats = F) (he : d.ext = c.ext) (hx : ExtTyped c.syms c.ext) {ss its}
    (hg : Good c d fmtA F cstart false c.prog none ss its) (hn : (d.items.flatMap defined).Nodup) (hsub : ∀ i ∈ its, i ∈ d.items)
    (hnames : ((fileIds c.prog).map (nameOf c.syms) ++ ownNames).Nodup) (hdefs : c.prog.defs.Nodup) :
    Linked c d fmtA F ∧ Sep c cstart false c.prog := by
  have hnm := (List.nodup_append.1 hnames).1
  have hinj := inj_of_nodup hnm
  obtain ⟨hsep, hfuncs⟩ := top_ok hinj hg rfl (TopInv.start hdefs (nodup_of_map hnm))
  have hfun : ∀ (j id : Nat) (ps : List Nat) (body : ATree), (decls c.prog)[j]? = some (id, ps, body) → FuncAt c d fmtA F d.items j id ps body := by
    intro j id ps body h
    have := (hfuncs j id ps body h).mono hsub
    rw [show cstart.count + j = j from Nat.zero_add j] at this
    exact this
  have hbody : ∀ j p, p ∈ chainDefs (bodyOf c j) → ObjAt c d fmtA F d.items p.1 p.2 ∧ p.1 ∈ fileIds c.prog := by
    intro j p hp
    cases hd : (decls c.prog)[j]? with
    | none =>
      unfold bodyOf at hp
      rw [hd] at hp
      simp [chainDefs] at hp
    | some q =>
      obtain ⟨id, ps, body⟩ := q
      obtain ⟨K, sym, f, cps, h1, h2, h3, h4, h5⟩ := hfun j id ps body hd
      subst h1
      rw [body_of h2] at hp
      rcases h5 with ⟨h5, _⟩ | ⟨h5, st, ss, bi, h6, h7, h8, h9, h10, h11, h12, h13⟩
      · rw [h5] at hp; simp [chainDefs] at hp
      · rw [h5] at hp
        exact ⟨h12 p hp, h13 _ (chain_file hp)⟩
  have htop : ∀ p, p ∈ chainDefs c.prog → ObjAt c d fmtA F d.items p.1 p.2 ∧ p.1 ∈ fileIds c.prog :=
    fun p hp => ⟨(good_defs hg rfl p hp).mono hsub, chain_file hp⟩
  have hobj : ∀ id, IsObj c id → (∃ e, ObjAt c d fmtA F d.items id e) ∧ id ∈ fileIds c.prog := by
    rintro id (h | ⟨i, h⟩)
    · obtain ⟨p, hp, rfl⟩ := List.mem_map.1 h
      exact ⟨⟨_, (htop p hp).1⟩, (htop p hp).2⟩
    · obtain ⟨p, hp, rfl⟩ := List.mem_map.1 h
      exact ⟨⟨_, (hbody i p hp).1⟩, (hbody i p hp).2⟩
  refine ⟨⟨ha, hf, he, hx, ?_, ?_, ?_, ?_, ?_, ?_⟩, hsep⟩
  · exact fun id id' h h' => hinj id id' (hobj id h).2 (hobj id' h').2
  · intro id h
    obtain ⟨⟨e, h1⟩, _⟩ := hobj id h
    obtain ⟨v, h2, _, h3⟩ := object_found hn h1
    exact ⟨v, h2, h3⟩
  · intro id e h hce
    have h1 : ObjAt c d fmtA F d.items id e := by
      rcases h with h | ⟨j, h⟩
      · exact (htop _ h).1
      · exact (hbody j _ h).1
    obtain ⟨sym, v, h2, ⟨_, st, cx, link, h3, h4⟩ | ⟨h3, _⟩⟩ := h1
    · obtain ⟨u, cu, h5, h6, h7⟩ := known_initial hf hn h2 h3 h4
      exact ⟨u, cu, h5, h3.literal, h6, by rw [nameOf_eq h2.symbol]; exact h7⟩
    · rw [hce] at h3; cases h3
  · intro j id ps body h hr
    obtain ⟨K, sym, f, cps, h1, h2, _⟩ := hfun j id ps body h
    have hdef := good_defined hg rfl
    have : nameOf c.syms id ∈ (fileIds c.prog).map (nameOf c.syms) := by
      rw [← hdef]
      obtain ⟨K, sym, f, cps, h1, h2, _, _, h5⟩ := hfuncs j id ps body h
      rw [nameOf_eq h2.symbol]
      rcases h5 with ⟨_, _, h5⟩ | ⟨_, st, ss, bi, h5, _⟩
      · exact List.mem_flatMap.2 ⟨_, h5, by simp [defined]⟩
      · exact List.mem_flatMap.2 ⟨_, h5, by simp [defined]⟩
    exact (List.nodup_append.1 hnames).2.2 _ this _ (List.mem_append_right _ hr) rfl
  · intro j id h
    obtain ⟨e, h1, h2⟩ := unknowns_chain h
    refine ⟨.inr ⟨j, List.mem_map.2 ⟨_, h1, rfl⟩⟩, fun v hv => ?_⟩
    obtain ⟨v', h3, h4, _⟩ := object_found hn (hbody j _ h1).1
    rw [hv] at h3
    cases h3
    rw [h4, h2]
  · intro j id ps body h
    obtain ⟨K, sym, f, cps, h1, h2, h3, h4, h5⟩ := hfun j id ps body h
    subst h1
    have hret : returnOf c.syms id = f.returnType := by unfold returnOf; rw [h2.symbol]; simp only [h2.kind]
    refine ⟨sym, f, h2.symbol, h2.kind, h2.types, h2.length, h2.nodup, fun p hp => ⟨h4 p hp, h2.notRunTime p hp⟩, ?_, ?_⟩
    · intro hext
      rcases h5 with ⟨_, h5, h6⟩ | ⟨h5, _⟩
      · refine ⟨h5, ?_, cps, ?_, h2.form⟩
        · rw [find_unique (fun i h => funcOf_defined h) hn h6 (by simp [defined])]; rfl
        · rw [find_unique (fun i h => externOf_defined h) hn h6 (by simp [defined])]; simp [externOf]
      · rw [hext] at h5; cases h5
    · intro hext
      rcases h5 with ⟨h5, _⟩ | ⟨h5, st, ss, bi, h6, h7, h8, h9, h10, h11, h12, h13⟩
      · rw [hext] at h5; cases h5
      · have hK : K.enter c.syms id ps = ⟨ps, ps, [], K.tops, K.count, some K.count, f.returnType⟩ := by unfold CScope.enter; rw [hret]
        rw [hK] at h8 h9
        refine ⟨cps, ss, bi, K.tops, ?_, h2.form, h7, h3, h8, h9, h10, h11⟩
        rw [find_unique (fun i h => funcOf_defined h) hn h6 (by simp [defined])]
        simp [funcOf]

/- ### Names are declared before they are used -/

theorem Vis.mono {K : CScope} {vis vis' : List (List Char)} (h : Vis c K vis) (hs : ∀ x ∈ vis, x ∈ vis') : Vis c K vis' :=
  ⟨fun id hi => hs _ (h.var id hi), fun j id ps body hd hj => hs _ (h.func j id ps body hd hj)⟩

theorem Vis.obj {K : CScope} {id vis} (h : Vis c K vis) (hn : nameOf c.syms id ∈ vis) : Vis c (K.addObj id) vis := by
  unfold CScope.addObj
  split
  · refine ⟨fun i hi => ?_, h.func⟩
    rcases hi with hi | hi | hi
    · exact h.var i (.inl hi)
    · rcases List.mem_cons.1 hi with rfl | hi
      · exact hn
      · exact h.var i (.inr (.inl hi))
    · exact h.var i (.inr (.inr hi))
  · refine ⟨fun i hi => ?_, h.func⟩
    rcases hi with hi | hi | hi
    · exact h.var i (.inl hi)
    · exact h.var i (.inr (.inl hi))
    · rcases List.mem_cons.1 hi with rfl | hi
      · exact hn
      · exact h.var i (.inr (.inr hi))

theorem Vis.push {K : CScope} {id vis} (h : Vis c K vis) (hn : nameOf c.syms id ∈ vis) : Vis c (K.push id) vis := by
  refine ⟨fun i hi => ?_, h.func⟩
  rcases hi with hi | hi
  · rcases List.mem_cons.1 hi with rfl | hi
    · exact hn
    · exact h.var i (.inl hi)
  · exact h.var i (.inr hi)

theorem Vis.next {K : CScope} {id ps child sym f cps vis} (h : Vis c K vis) (ha : ParamsAt c K id ps child sym f cps) (hn : sym.name ∈ vis) :
    Vis c { K with count := K.count + 1 } vis := by
  refine ⟨h.var, fun j id' ps' body hd hj => ?_⟩
  have hj : j < K.count + 1 ∨ K.self = some j := hj
  by_cases he : j = K.count
  · subst he
    rw [ha.decl] at hd
    cases hd
    rw [nameOf_eq ha.symbol]
    exact hn
  · exact h.func j id' ps' body hd (by rcases hj with hj | hj; exact .inl (by omega); exact .inr hj)

theorem addObj_block {K : CScope} {id} : (K.addObj id).block = K.block := by unfold CScope.addObj; split <;> rfl

theorem vis_inner {K : CScope} {vis} (h : Vis c K vis) : Vis c K.inner vis := ⟨h.var, h.func⟩

theorem good_scoped {K deep t o ss its} (h : Good c d fmtA F K deep t o ss its) : ∀ vis, Vis c K vis → (∀ x ∈ its.flatMap defined, x ∈ vis) →
    scopedS vis (K.block.map (nameOf c.syms)) ss = true ∧ ∀ els, o = some els → scopedS vis [] els = true := by
  induction h with
  | nil => intro vis hv hi; exact ⟨rfl, fun _ h => by cases h⟩
  | same hp hl hn ih => exact ih
  | simple hp hl hs hn ih => intro vis hv hi; exact ⟨hs _ _ _ hv (ih vis hv hi).1, fun _ h => by cases h⟩
  | spin hp hl hn ih =>
    intro vis hv hi
    refine ⟨?_, fun _ h => by cases h⟩
    unfold scopedS
    rw [(ih vis hv hi).1]
    rfl
  | known ha hk hx hn ih =>
    intro vis hv hi
    have := ih vis (hv.obj (hi _ (by simp [defined, nameOf_eq ha.symbol]))) fun x hx => hi x (by rw [List.flatMap_cons]; exact List.mem_append_right _ hx)
    rw [addObj_block] at this
    exact this
  | @unknown K id e n k i x e' tok next sym v cx st link ss its ha hk hx hn ih =>
    intro vis hv hi
    have hname := hi (nameOf c.syms id) (by simp [defined, nameOf_eq ha.symbol])
    have := ih vis (hv.obj hname) fun x hx => hi x (by rw [List.flatMap_cons]; exact List.mem_append_right _ hx)
    rw [addObj_block] at this
    refine ⟨?_, fun _ h => by cases h⟩
    rw [nameOf_eq ha.symbol] at hname
    unfold scopedS
    simp only [hname, decide_true, hx vis hv, this.1, Bool.and_self]
  | @loc K id e n k i x e' tok next sym kk ty cx ss its hs hx hb hn ih =>
    intro vis hv hi
    have hv' : Vis c K (sym.name :: vis) := hv.mono fun x hx => List.mem_cons_of_mem _ hx
    have := (ih (sym.name :: vis) (hv'.push (by rw [nameOf_eq hs]; exact List.mem_cons_self ..)) fun x hx => List.mem_cons_of_mem _ (hi x hx)).1
    refine ⟨?_, fun _ h => by cases h⟩
    have hnb : sym.name ∉ K.block.map (nameOf c.syms) := by
      intro h
      obtain ⟨i, h1, h2⟩ := List.mem_map.1 h
      exact hb i h1 (by rw [h2, nameOf_eq hs])
    rw [show (K.push id).block.map (nameOf c.syms) = sym.name :: K.block.map (nameOf c.syms) by rw [← nameOf_eq hs]; rfl] at this
    unfold scopedS
    simp only [hx _ hv', hnb, not_false_eq_true, decide_true, this, Bool.and_self]
  | ifs hp hx hc hn ihc ih =>
    intro vis hv hi
    refine ⟨?_, fun _ h => by cases h⟩
    have h1 : scopedS vis [] _ = true := (ihc vis (vis_inner hv) (fun x hx => by simp at hx)).1
    have h2 := ih vis hv hi
    unfold scopedS
    simp only [hx vis hv, h1, h2.1, h2.2 _ rfl, Bool.and_self]
  | whiles hp hx hc hn ihc ih =>
    intro vis hv hi
    refine ⟨?_, fun _ h => by cases h⟩
    have h1 : scopedS vis [] _ = true := (ihc vis (vis_inner hv) (fun x hx => by simp at hx)).1
    have h2 := ih vis hv hi
    unfold scopedS
    simp only [hx vis hv, h1, h2.1, Bool.and_self]
  | external ha he hp hl hn ih =>
    intro vis hv hi
    exact ih vis (hv.next ha (hi _ (by simp [defined]))) fun x hx => hi x (by rw [List.flatMap_cons]; exact List.mem_append_right _ hx)
  | func ha he hp hex hf hfi hw htx hc hn ihc ih =>
    intro vis hv hi
    exact ih vis (hv.next ha (hi _ (by simp [defined]))) fun x hx => hi x (by
      rw [List.flatMap_append, List.flatMap_cons]; exact List.mem_append_right _ (List.mem_append_right _ hx))
  | noElse hn ih => intro vis hv hi; exact ⟨(ih vis hv hi).1, fun _ h => by cases h; rfl⟩
  | comment hp hl hn ih => exact ih
  | els hp hc hn ihc ih =>
    intro vis hv hi
    refine ⟨(ih vis hv hi).1, fun _ h => ?_⟩
    cases h
    exact (ihc vis (vis_inner hv) (fun x hx => by simp at hx)).1
  | elif hp hx hc hn ihc ih =>
    intro vis hv hi
    refine ⟨(ih vis hv hi).1, fun _ h => ?_⟩
    cases h
    have h1 : scopedS vis [] _ = true := (ihc vis (vis_inner hv) (fun x hx => by simp at hx)).1
    have h2 := ih vis hv hi
    unfold scopedS
    rw [hx vis hv, h1, h2.2 _ rfl]
    rfl

theorem params_names {syms : List Symbol} {ps cps} (h : ParamsOf syms ps cps) : cps.map (·.2) = ps.map (nameOf syms) := by
  induction h with
  | nil => rfl
  | cons h1 _ ih =>
    obtain ⟨sym, v, h2, h3, rfl⟩ := h1
    simp only [List.map_cons, ih, nameOf_eq h2]

theorem good_items {K deep t o ss its} (h : Good c d fmtA F K deep t o ss its) : deep = false → ∀ vis rest, (K.self = none → Vis c K vis) →
    (∀ vis', (∀ x ∈ vis, x ∈ vis') → (∀ x ∈ its.flatMap defined, x ∈ vis') → scopedI vis' rest = true) → scopedI vis (its ++ rest) = true := by
  induction h with
  | nil => intro _ vis rest hv hr; exact hr vis (fun _ h => h) (fun _ h => by simp at h)
  | same hp hl hn ih => exact ih
  | simple hp hl hs hn ih => exact ih
  | spin hp hl hn ih => exact ih
  | @known K id e n k i x e' tok next sym v cx st link ss its ha hk hx hn ih =>
    intro hd vis rest hv hr
    rw [List.cons_append]
    have hs : scopedX (sym.name :: vis) cx = true := by unfold scopedX; rw [constant_names hx.constant]; rfl
    unfold scopedI
    rw [Option.all_some, hs, Bool.true_and]
    refine ih hd _ rest (fun h => ?_) fun vis' h1 h2 => hr vis' (fun x hx => h1 x (List.mem_cons_of_mem _ hx)) fun x hx => ?_
    · rw [CScope.addObj_same.2.2] at h
      exact ((hv h).mono fun x hx => List.mem_cons_of_mem _ hx).obj (by rw [nameOf_eq ha.symbol]; exact List.mem_cons_self ..)
    · rw [List.flatMap_cons, List.mem_append] at hx
      rcases hx with hx | hx
      · simp only [defined, List.mem_singleton] at hx
        subst hx
        exact h1 _ (List.mem_cons_self ..)
      · exact h2 x hx
  | @unknown K id e n k i x e' tok next sym v cx st link ss its ha hk hx hn ih =>
    intro hd vis rest hv hr
    rw [List.cons_append]
    unfold scopedI
    rw [Option.all_none, Bool.true_and]
    refine ih hd _ rest (fun h => ?_) fun vis' h1 h2 => hr vis' (fun x hx => h1 x (List.mem_cons_of_mem _ hx)) fun x hx => ?_
    · rw [CScope.addObj_same.2.2] at h
      exact ((hv h).mono fun x hx => List.mem_cons_of_mem _ hx).obj (by rw [nameOf_eq ha.symbol]; exact List.mem_cons_self ..)
    · rw [List.flatMap_cons, List.mem_append] at hx
      rcases hx with hx | hx
      · simp only [defined, List.mem_singleton] at hx
        subst hx
        exact h1 _ (List.mem_cons_self ..)
      · exact h2 x hx
  | loc => intro hd; cases hd
  | ifs hp hx hc hn ihc ih => exact ih
  | whiles hp hx hc hn ihc ih => exact ih
  | @external K id ps p tok child next sym f cps ss its ha he hp hl hn ih =>
    intro hd vis rest hv hr
    rw [List.cons_append]
    have hnd : (cps.map (·.2)).Nodup := by rw [params_names ha.form]; exact ha.names
    unfold scopedI
    rw [decide_eq_true hnd, Bool.true_and]
    refine ih hd _ rest (fun h => ?_) fun vis' h1 h2 => hr vis' (fun x hx => h1 x (List.mem_cons_of_mem _ hx)) fun x hx => ?_
    · exact ((hv ha.self).mono fun x hx => List.mem_cons_of_mem _ hx).next ha (List.mem_cons_self ..)
    · rw [List.flatMap_cons, List.mem_append] at hx
      rcases hx with hx | hx
      · simp only [defined, if_true, List.mem_singleton] at hx
        subst hx
        exact h1 _ (List.mem_cons_self ..)
      · exact h2 x hx
  | @func K id ps p tok child next sym f cps st ex body ss bi ni ha he hp hex hf hfi hw htx hc hn ihc ih =>
    intro hd vis rest hv hr
    have hnd : (cps.map (·.2)).Nodup := by rw [params_names ha.form]; exact ha.names
    rw [List.append_assoc, List.append_assoc]
    refine ihc rfl vis _ (fun h => by cases h) fun vis1 b1 b2 => ?_
    have key : ∀ vis2, (∀ x ∈ vis1, x ∈ vis2) → scopedI vis2 ((.func st (cType f.returnType) sym.name cps body :: ni) ++ rest) = true := by
      intro vis2 b3
      rw [List.cons_append]
      have hv2 : Vis c K vis2 := (hv ha.self).mono fun x hx => b3 x (b1 x hx)
      have hs : scopedS (cps.map (·.2) ++ sym.name :: vis2) (cps.map (·.2)) body = true := by
        have hvis : Vis c (K.enter c.syms id ps) (cps.map (·.2) ++ sym.name :: vis2) := by
          refine ⟨fun i hi => ?_, fun j id' ps' body' hdj hj => ?_⟩
          · rcases hi with hi | hi | hi
            · rw [params_names ha.form]
              exact List.mem_append_left _ (List.mem_map.2 ⟨i, hi, rfl⟩)
            · cases hi
            · exact List.mem_append_right _ (List.mem_cons_of_mem _ (hv2.var i (.inr (.inr hi))))
          · rcases hj with hj | hj
            · exact List.mem_append_right _ (List.mem_cons_of_mem _ (hv2.func j id' ps' body' hdj (.inl hj)))
            · cases hj
              rw [ha.decl] at hdj
              cases hdj
              rw [nameOf_eq ha.symbol]
              exact List.mem_append_right _ (List.mem_cons_self ..)
        have := (good_scoped hc _ hvis fun x hx => List.mem_append_right _ (List.mem_cons_of_mem _ (b3 x (b2 x hx)))).1
        rw [show (K.enter c.syms id ps).block = ps from rfl, ← params_names ha.form] at this
        exact this
      unfold scopedI
      rw [decide_eq_true hnd, hs, Bool.true_and, Bool.true_and]
      refine ih hd _ rest (fun h => ?_) fun vis' h1 h2 => hr vis' (fun x hx => h1 x (List.mem_cons_of_mem _ (b3 x (b1 x hx)))) fun x hx => ?_
      · exact (hv2.mono fun x hx => List.mem_cons_of_mem _ hx).next ha (List.mem_cons_self ..)
      · rw [List.flatMap_append, List.flatMap_append, List.flatMap_cons, List.mem_append, List.mem_append, List.mem_append] at hx
        obtain ⟨link, rfl⟩ := hex
        rw [defined_exported] at hx
        rcases hx with (hx | hx) | hx | hx
        · exact h1 x (List.mem_cons_of_mem _ (b3 x (b2 x hx)))
        · cases hx
        · simp only [defined, List.mem_singleton] at hx
          subst hx
          exact h1 _ (List.mem_cons_self ..)
        · exact h2 x hx
    obtain ⟨link, rfl⟩ := hex
    unfold exported
    split
    · rw [List.singleton_append]
      unfold scopedI
      rw [decide_eq_true hnd, Bool.true_and]
      exact key _ fun x hx => List.mem_cons_of_mem _ hx
    · exact key vis1 fun x hx => hx
  | noElse hn ih => exact ih
  | comment hp hl hn ih => exact ih
  | els hp hc hn ihc ih => exact ih
  | elif hp hx hc hn ihc ih => exact ih

theorem scoped_append {r : Stms} (hr : ∀ vis block, scopedS vis block r = true) : ∀ {ss : Stms} {vis block}, scopedS vis block ss = true →
    scopedS vis block (ss.append r) = true
  | .nil, vis, block, _ => hr vis block
  | .simple s next, vis, block, h => by
    unfold Stms.append
    cases s with
    | decl k ty x e =>
      unfold scopedS at h ⊢
      simp only [Bool.and_eq_true] at h ⊢
      exact ⟨h.1, scoped_append hr h.2⟩
    | assign x e =>
      unfold scopedS at h ⊢
      simp only [Bool.and_eq_true] at h ⊢
      exact ⟨h.1, scoped_append hr h.2⟩
    | expr e =>
      unfold scopedS at h ⊢
      simp only [Bool.and_eq_true] at h ⊢
      exact ⟨h.1, scoped_append hr h.2⟩
    | ret e =>
      cases e with
      | none => unfold scopedS at h ⊢; exact scoped_append hr h
      | some e =>
        unfold scopedS at h ⊢
        simp only [Bool.and_eq_true] at h ⊢
        exact ⟨h.1, scoped_append hr h.2⟩
    | skip => unfold scopedS at h ⊢; exact scoped_append hr h
    | breaks => unfold scopedS at h ⊢; exact scoped_append hr h
    | continues => unfold scopedS at h ⊢; exact scoped_append hr h
  | .ifs e t f next, vis, block, h => by
    unfold Stms.append
    unfold scopedS at h ⊢
    simp only [Bool.and_eq_true] at h ⊢
    exact ⟨h.1, scoped_append hr h.2⟩
  | .whiles e t next, vis, block, h => by
    unfold Stms.append
    unfold scopedS at h ⊢
    simp only [Bool.and_eq_true] at h ⊢
    exact ⟨h.1, scoped_append hr h.2⟩
  | .block t next, vis, block, h => by
    unfold Stms.append
    unfold scopedS at h ⊢
    simp only [Bool.and_eq_true] at h ⊢
    exact ⟨h.1, scoped_append hr h.2⟩

end

end Skull.CSim
