import Verif.Model.TokHeap
import Verif.Proofs.TokenMain
/-
Helper lemmas for C83: the tokenizer with pointers does what the one with lists does, and `last` points to the token before the current
one whenever it is used.
-/
namespace Skull.THeap
open Skull.Spec

/-- Tokens in blocks one after the other, from block `k` on, each pointing to the next one. -/
def chain (k : Nat) : List Token → List Node
  | [] => []
  | t :: ts => ⟨t, some (k + 1)⟩ :: chain (k + 1) ts

theorem chain_length (k : Nat) (ts : List Token) : (chain k ts).length = ts.length := by
  induction ts generalizing k with
  | nil => rfl
  | cons t ts ih => simp [chain, ih]

theorem chain_append (k : Nat) (ts us : List Token) : chain k (ts ++ us) = chain k ts ++ chain (k + ts.length) us := by
  induction ts generalizing k with
  | nil => simp [chain]
  | cons t ts ih => simp [chain, ih, Nat.add_comm, Nat.add_left_comm]

/-- The first `n` blocks are there. -/
def first (n : Nat) : Nat → Life := fun b => if b < n then .live else .fresh

/-- The state of the tokenizer with lists and that of the one with pointers. -/
structure Rel (c : TokCtx) (s : TH) : Prop where
  mem : s.mem = chain 0 c.done.reverse ++ [⟨c.token, none⟩]
  token : s.token = c.done.length
  code : s.code = c.code
  line : s.line = c.line
  col : s.col = c.col
  evs : memRun (fun _ => .fresh) s.evs = some (first (c.done.length + 1))

/-- `ctx->last` is the token before the current one. -/
def LastOk (c : TokCtx) (s : TH) : Prop := c.done ≠ [] → s.last + 1 = c.done.length

theorem memRun_append {β} [DecidableEq β] (es fs : List (MemEvent β)) (m : β → Life) :
    memRun m (es ++ fs) = (memRun m es).bind fun m => memRun m fs := by
  induction es generalizing m with
  | nil => rfl
  | cons e es ih =>
    simp only [List.cons_append, memRun]
    split
    · exact ih _
    · rfl

theorem Rel.length {c s} (h : Rel c s) : s.mem.length = c.done.length + 1 := by
  rw [h.mem, List.length_append, chain_length, List.length_reverse]; rfl

theorem Rel.at {c s} (h : Rel c s) : s.mem[s.token]? = some ⟨c.token, none⟩ := by
  rw [h.mem, h.token, List.getElem?_append_right (by simp [chain_length])]
  simp [chain_length]

theorem Rel.use {c s es} (h : Rel c s) (hes : memRun (first (c.done.length + 1)) es = some (first (c.done.length + 1))) :
    memRun (fun _ => .fresh) (s.evs ++ es) = some (first (c.done.length + 1)) := by
  rw [memRun_append, h.evs]; exact hes

theorem run_use {n b : Nat} (h : b < n) : memRun (first n) [.use b] = some (first n) := by
  simp [memRun, memStep, first, h]

theorem run_alloc (n : Nat) {b : Nat} (h : b < n) : memRun (first n) [.alloc n, .use b] = some (first (n + 1)) := by
  have e : setLife (first n) n .live = first (n + 1) := by
    funext x
    unfold setLife first
    repeat' split
    all_goals first | rfl | omega
  have h0 : first n n = .fresh := by simp [first]
  simp only [memRun, memStep, h0, if_true, e]
  rw [if_pos (by simp [first]; omega)]

theorem set_at (c : TokCtx) {mem : List Node} (h : mem = chain 0 c.done.reverse ++ [⟨c.token, none⟩]) (n : Node) :
    mem.set c.done.length n = chain 0 c.done.reverse ++ [n] := by
  rw [h, List.set_append_right _ _ (by simp [chain_length])]
  simp [chain_length]

theorem readTok_ok {c s} (h : Rel c s) : ∃ s', readTok s = .ok c.token s' ∧ Rel c s' ∧ s'.last = s.last := by
  have e : readTok s = .ok c.token { s with evs := s.evs ++ [.use s.token] } := by unfold readTok; rw [h.at]
  refine ⟨_, e, ⟨h.mem, h.token, h.code, h.line, h.col, h.use (run_use (by rw [h.token]; omega))⟩, rfl⟩

theorem writeTok_ok {c s} (h : Rel c s) (f : Token → Token) :
    ∃ s', writeTok f s = .ok () s' ∧ Rel { c with token := f c.token } s' ∧ s'.last = s.last := by
  have e : writeTok f s = .ok () { s with mem := s.mem.set s.token ⟨f c.token, none⟩, evs := s.evs ++ [.use s.token] } := by
    unfold writeTok; rw [h.at]
  refine ⟨_, e, ⟨?_, h.token, h.code, h.line, h.col, h.use (run_use (by rw [h.token]; omega))⟩, rfl⟩
  show s.mem.set s.token _ = _
  rw [h.token, set_at c h.mem]

theorem overwriteTok_ok {c s} (h : Rel c s) (t : Token) :
    ∃ s', overwriteTok t s = .ok () s' ∧ Rel { c with token := t } s' ∧ s'.last = s.last := by
  have e : overwriteTok t s = .ok () { s with mem := s.mem.set s.token ⟨t, none⟩, evs := s.evs ++ [.use s.token] } := by
    unfold overwriteTok; rw [h.at]
  refine ⟨_, e, ⟨?_, h.token, h.code, h.line, h.col, h.use (run_use (by rw [h.token]; omega))⟩, rfl⟩
  show s.mem.set s.token _ = _
  rw [h.token, set_at c h.mem]

theorem setupNext_ok {c s} (h : Rel c s) :
    ∃ s', setupNext s = .ok () s' ∧ Rel { c with done := c.token :: c.done, token := {} } s' ∧ s'.last = s.last := by
  have e : setupNext s = .ok () { s with
      mem := s.mem.set s.token ⟨c.token, some s.mem.length⟩ ++ [{}]
      token := s.mem.length
      evs := s.evs ++ [.alloc s.mem.length, .use s.token] } := by
    unfold setupNext; rw [h.at]
  refine ⟨_, e, ⟨?_, ?_, h.code, h.line, h.col, ?_⟩, rfl⟩
  · show s.mem.set s.token _ ++ _ = _
    rw [h.token, set_at c h.mem, h.length]
    simp [chain_append, chain]
  · exact h.length
  · show memRun _ (s.evs ++ _) = _
    rw [memRun_append, h.evs, h.length]
    exact run_alloc _ (by rw [h.token]; omega)

theorem setLast_ok {c s} (h : Rel c s) : ∃ s', setLast s = .ok () s' ∧ Rel c s' ∧ s'.last = c.done.length :=
  ⟨_, rfl, ⟨h.mem, h.token, h.code, h.line, h.col, h.evs⟩, h.token⟩

theorem move_ok {c s} (h : Rel c s) (code : List Char) (line col : Nat) :
    Rel { c with code := code, line := line, col := col } { s with code := code, line := line, col := col } :=
  ⟨h.mem, h.token, rfl, rfl, rfl, h.evs⟩

/-- A step with pointers does what the step with lists does. -/
def Does (r : TokRes TokCtx) (o : Res Unit) : Prop :=
  match r with
  | .ok c => ∃ s, o = .ok () s ∧ Rel c s ∧ LastOk c s
  | .err e l k => ∃ s c, o = .err e l k s ∧ Rel c s
  | .ub => True

theorem bind_ok {α β} {m : HTok α} {f : α → HTok β} {s a s'} (h : m s = .ok a s') : (m >>= f) s = f a s' := by
  show HTok.bind m f s = _
  unfold HTok.bind
  rw [h]

theorem bind_err {α β} {m : HTok α} {f : α → HTok β} {s e l k s'} (h : m s = .err e l k s') : (m >>= f) s = .err e l k s' := by
  show HTok.bind m f s = _
  unfold HTok.bind
  rw [h]

theorem addInfo_ok {c s} (h : Rel c s) : ∃ s', addInfo s = .ok () s' ∧ Rel (tokenAddInfo c) s' ∧ s'.last = s.last := by
  obtain ⟨s', h1, h2, h3⟩ := writeTok_ok h fun t => { t with begin := some s.code, line := s.line, col := s.col }
  refine ⟨s', by unfold addInfo; rw [bind_ok (show get s = .ok s s from rfl)]; exact h1, ?_, h3⟩
  rw [h.code, h.line, h.col] at h2
  exact h2

/-- `c` after `if (!ctx->token->begin) token_add_info(ctx);` -/
theorem begin_ok {c s} (h : Rel c s) :
    ∃ s', begin' s = .ok () s' ∧ Rel (if c.token.begin.isNone then tokenAddInfo c else c) s' ∧ s'.last = s.last := by
  obtain ⟨s1, h1, h2, h3⟩ := readTok_ok h
  unfold begin'
  rw [bind_ok h1]
  split
  · obtain ⟨s2, k1, k2, k3⟩ := addInfo_ok h2
    exact ⟨s2, k1, k2, k3.trans h3⟩
  · exact ⟨s1, rfl, h2, h3⟩

theorem begin_same (c : TokCtx) : (if c.token.begin.isNone then tokenAddInfo c else c).done = c.done ∧
    (if c.token.begin.isNone then tokenAddInfo c else c).code = c.code ∧ (if c.token.begin.isNone then tokenAddInfo c else c).line = c.line ∧
    (if c.token.begin.isNone then tokenAddInfo c else c).col = c.col := by
  split <;> exact ⟨rfl, rfl, rfl, rfl⟩

theorem iterComment_does {c s} (h : Rel c s) (hl : LastOk c s) : Does (Skull.iterComment c) (iterComment s) := by
  unfold iterComment Skull.iterComment
  rw [bind_ok (show get s = .ok s s from rfl), h.code]
  cases hc : c.code with
  | nil => trivial
  | cons x rest =>
    dsimp only
    cases hk : commentKind rest with
    | none => dsimp only; rw [h.line, h.col]; exact ⟨s, c, rfl, h⟩
    | some block =>
      dsimp only
      obtain ⟨s1, h1, h2, h3⟩ := begin_ok h
      obtain ⟨k1, _, k2, k3⟩ := begin_same c
      rw [bind_ok h1, h.line, h.col]
      generalize (if c.token.begin.isNone then tokenAddInfo c else c) = c1 at *
      rw [k2, k3]
      cases commentLoop block rest c.line (c.col + 1) with
      | «at» code line col =>
        dsimp only
        rw [bind_ok (show modify _ s1 = .ok () _ from rfl)]
        obtain ⟨s2, m1, m2, m3⟩ := writeTok_ok (move_ok h2 code line col) fun t => { t with ty := .comment }
        exact ⟨s2, m1, m2, fun hd => by rw [m3]; show s1.last + 1 = _; rw [h3]; exact k1 ▸ hl (k1 ▸ hd)⟩
      | eof line col =>
        dsimp only
        rw [bind_ok (show modify _ s1 = .ok () _ from rfl)]
        cases block with
        | true =>
          obtain ⟨s2, m1, m2, m3⟩ := readTok_ok (move_ok h2 [] line col)
          show Does _ ((readTok >>= fun t => fail .noClosingComment t.line t.col) _)
          rw [bind_ok m1]
          exact ⟨s2, _, rfl, m2⟩
        | false =>
          obtain ⟨s2, m1, m2, m3⟩ := writeTok_ok (move_ok h2 [] line col) fun t => { t with ty := .comment }
          exact ⟨s2, m1, m2, fun hd => by rw [m3]; show s1.last + 1 = _; rw [h3]; exact k1 ▸ hl (k1 ▸ hd)⟩
      | nested line col => exact ⟨s1, _, rfl, h2⟩
      | ub => trivial

theorem iterQuote_does {c s} (h : Rel c s) (hl : LastOk c s) : Does (Skull.iterQuote c) (iterQuote s) := by
  unfold iterQuote Skull.iterQuote
  rw [bind_ok (show get s = .ok s s from rfl), h.code]
  cases hc : c.code with
  | nil => trivial
  | cons x rest =>
    dsimp only
    obtain ⟨s1, h1, h2, h3⟩ := begin_ok h
    obtain ⟨k1, k0, k2, k3⟩ := begin_same c
    rw [bind_ok h1, h.line, h.col, ← hc]
    generalize (if c.token.begin.isNone then tokenAddInfo c else c) = c1 at *
    rw [k0, k2, k3]
    cases quoteLoop x c.code c.line c.col with
    | «at» code line col => exact ⟨_, rfl, move_ok h2 code line col, fun hd => by show s1.last + 1 = _; rw [h3]; exact k1 ▸ hl (k1 ▸ hd)⟩
    | eof line col =>
      obtain ⟨s2, m1, m2, m3⟩ := readTok_ok h2
      dsimp only
      rw [bind_ok m1]
      exact ⟨s2, _, rfl, m2⟩
    | nested line col => trivial
    | ub => trivial

theorem setLen_ok {c s} (h : Rel c s) (b : List Char) :
    ∃ s', setLen b s = .ok () s' ∧ Rel { c with token := { c.token with len := b.length - c.code.length } } s' ∧ s'.last = s.last := by
  obtain ⟨s', h1, h2, h3⟩ := writeTok_ok h fun t => { t with len := b.length - s.code.length }
  refine ⟨s', by unfold setLen; rw [bind_ok (show get s = .ok s s from rfl)]; exact h1, ?_, h3⟩
  rw [h.code] at h2
  exact h2

/-- The end of `parse_delimiter`. -/
theorem delimiter_end {c s} (h : Rel c s) (x : Char) : ∃ s', (do
      let s ← get
      overwriteTok { begin := some s.code, len := 1, line := s.line, col := s.col }
      writeTok fun t => { t with ty := delimiterType x }
      setLast
      setupNext : HTok Unit) s = .ok () s' ∧
    Rel { c with done := { begin := some c.code, len := 1, ty := delimiterType x, line := c.line, col := c.col } :: c.done, token := {} } s' ∧
    s'.last = c.done.length := by
  rw [bind_ok (show get s = .ok s s from rfl), h.code, h.line, h.col]
  obtain ⟨s1, a1, a2, a3⟩ := overwriteTok_ok h { begin := some c.code, len := 1, line := c.line, col := c.col }
  obtain ⟨s2, b1, b2, b3⟩ := writeTok_ok a2 fun t => { t with ty := delimiterType x }
  obtain ⟨s3, c1, c2, c3⟩ := setLast_ok b2
  obtain ⟨s4, d1, d2, d3⟩ := setupNext_ok c2
  exact ⟨s4, by rw [bind_ok a1, bind_ok b1, bind_ok c1]; exact d1, d2, d3.trans c3⟩

theorem parseDelimiter_ok {c s} (h : Rel c s) (x : Char) :
    ∃ s', parseDelimiter x s = .ok () s' ∧ Rel (Skull.parseDelimiter c x) s' ∧ LastOk (Skull.parseDelimiter c x) s' := by
  obtain ⟨s1, a1, a2, a3⟩ := readTok_ok h
  unfold parseDelimiter Skull.parseDelimiter
  rw [bind_ok a1]
  cases hb : c.token.begin with
  | none =>
    dsimp only
    obtain ⟨s2, b1, b2, b3⟩ := delimiter_end a2 x
    exact ⟨s2, b1, b2, fun _ => by rw [b3]; rfl⟩
  | some b =>
    dsimp only
    obtain ⟨s2, b1, b2, b3⟩ := setLen_ok a2 b
    obtain ⟨s3, c1, c2, c3⟩ := setupNext_ok b2
    rw [bind_ok b1, bind_ok c1]
    obtain ⟨s4, d1, d2, d3⟩ := delimiter_end c2 x
    exact ⟨s4, d1, d2, fun _ => by rw [d3]; rfl⟩

theorem innerChain_ok {c s} (h : Rel c s) (hl : LastOk c s) :
    ∃ s', innerChain s = .ok () s' ∧ Rel (Skull.innerChain c) s' ∧ LastOk (Skull.innerChain c) s' := by
  unfold innerChain Skull.innerChain
  rw [bind_ok (show get s = .ok s s from rfl), h.code]
  cases hc : c.code with
  | nil => exact ⟨s, rfl, h, hl⟩
  | cons x rest =>
    dsimp only
    split
    · exact parseDelimiter_ok h x
    · obtain ⟨s1, a1, a2, a3⟩ := readTok_ok h
      rw [bind_ok a1]
      have hl1 : LastOk c s1 := fun hd => by rw [a3]; exact hl hd
      cases hb : c.token.begin with
      | none =>
        dsimp only
        split
        · obtain ⟨s2, b1, b2, b3⟩ := addInfo_ok a2
          exact ⟨s2, b1, b2, fun hd => by rw [b3]; exact hl1 hd⟩
        · exact ⟨s1, rfl, a2, hl1⟩
      | some b =>
        dsimp only
        split
        · obtain ⟨s2, b1, b2, b3⟩ := setLen_ok a2 b
          obtain ⟨s3, c1, c2, c3⟩ := setLast_ok b2
          obtain ⟨s4, d1, d2, d3⟩ := setupNext_ok c2
          exact ⟨s4, by rw [bind_ok b1, bind_ok c1]; exact d1, d2, fun _ => by rw [d3, c3]; rfl⟩
        · exact ⟨s1, rfl, a2, hl1⟩

theorem innerStep_does {c s} (h : Rel c s) (hl : LastOk c s) : Does (Skull.innerStep c) (innerStep s) := by
  unfold innerStep Skull.innerStep
  rw [bind_ok (show get s = .ok s s from rfl), h.code]
  cases hc : c.code with
  | nil => trivial
  | cons x rest =>
    dsimp only
    split
    · refine ⟨_, rfl, ?_, hl⟩
      exact ⟨h.mem, h.token, rfl, by show s.line + 1 = _; rw [h.line], rfl, h.evs⟩
    · exact ⟨_, rfl, ⟨h.mem, h.token, rfl, h.line, h.col, h.evs⟩, hl⟩

theorem innerLoop_does {c s} (h : Rel c s) (hl : LastOk c s) : Does (tokenizeInnerLoop c) (innerLoop s) := by
  unfold innerLoop tokenizeInnerLoop
  rw [bind_ok (show modify _ s = .ok () _ from rfl)]
  have h' : Rel { c with col := c.col + 1 } { s with col := s.col + 1 } := ⟨h.mem, h.token, h.code, h.line, by show s.col + 1 = _; rw [h.col], h.evs⟩
  have hl' : LastOk { c with col := c.col + 1 } { s with col := s.col + 1 } := hl
  generalize { s with col := s.col + 1 } = s at h' hl'
  generalize { c with col := c.col + 1 } = c at h' hl'
  rw [bind_ok (show get s = .ok s s from rfl), h'.code]
  cases hc : c.code with
  | nil => dsimp only; rw [hc]; trivial
  | cons x rest =>
    dsimp only
    rw [hc]
    dsimp only
    split
    · have hd := iterComment_does h' hl'
      cases hr : Skull.iterComment c with
      | ok c1 =>
        rw [hr] at hd
        obtain ⟨s1, a1, a2, a3⟩ := hd
        rw [bind_ok a1, bind_ok (show get s1 = .ok s1 s1 from rfl), a2.code]
        dsimp only
        split
        · exact ⟨s1, rfl, a2, a3⟩
        · exact innerStep_does a2 a3
      | err e l k =>
        rw [hr] at hd
        obtain ⟨s1, c1, a1, a2⟩ := hd
        exact ⟨s1, c1, bind_err a1, a2⟩
      | ub => trivial
    · split
      · have hd := iterQuote_does h' hl'
        cases hr : Skull.iterQuote c with
        | ok c1 =>
          rw [hr] at hd
          obtain ⟨s1, a1, a2, a3⟩ := hd
          obtain ⟨s2, b1, b2, b3⟩ := innerChain_ok a2 a3
          rw [bind_ok a1, bind_ok b1]
          exact innerStep_does b2 b3
        | err e l k =>
          rw [hr] at hd
          obtain ⟨s1, c1, a1, a2⟩ := hd
          exact ⟨s1, c1, bind_err a1, a2⟩
        | ub => trivial
      · obtain ⟨s2, b1, b2, b3⟩ := innerChain_ok h' hl'
        rw [bind_ok b1]
        exact innerStep_does b2 b3

theorem loop_does : ∀ (fuel : Nat) (c : TokCtx) (s : TH), Rel c s → LastOk c s → ∀ r, tokenizeLoop fuel c = some r →
    r = .ub ∨ ∃ o, loop fuel s = some o ∧ Does r o := by
  intro fuel
  induction fuel with
  | zero => intro c s _ _ r h; cases h
  | succ n ih =>
    intro c s h hl r hr
    unfold tokenizeLoop at hr
    unfold loop
    rw [h.code]
    split
    · rename_i hc
      rw [if_pos hc] at hr
      cases hr
      exact .inr ⟨_, rfl, s, rfl, h, hl⟩
    · rename_i hc
      rw [if_neg hc] at hr
      have hd := innerLoop_does h hl
      cases hi : tokenizeInnerLoop c with
      | ok c1 =>
        rw [hi] at hd hr
        obtain ⟨s1, a1, a2, a3⟩ := hd
        rw [a1]
        exact ih c1 s1 a2 a3 r hr
      | err e l k =>
        rw [hi] at hd hr
        obtain ⟨s1, c1, a1, a2⟩ := hd
        cases hr
        rw [a1]
        exact .inr ⟨_, rfl, s1, c1, rfl, a2⟩
      | ub =>
        rw [hi] at hr
        cases hr
        exact .inl rfl

/- ### The end -/

/-- Blocks `k` to `n - 1` are there, those before it were freed. -/
def between (k n : Nat) : Nat → Life := fun b => if b < k then .freed else if b < n then .live else .fresh

theorem between_free {k n : Nat} (h : k < n) : memRun (between k n) [.use k, .use k, .free k] = some (between (k + 1) n) := by
  have e : setLife (between k n) k .freed = between (k + 1) n := by
    funext x
    unfold setLife between
    repeat' split
    all_goals first | rfl | omega
  have h0 : between k n k = .live := by simp [between, h]
  simp only [memRun, memStep, h0, if_true, e]

/-- A list in blocks `k`, `k + 1`, ... with these tokens, which may be followed by more blocks. -/
structure Listed (mem : List Node) (k : Nat) (ts : List Token) : Prop where
  tok : ∀ i t, ts[i]? = some t → ∃ n, mem[k + i]? = some n ∧ n.tok = t ∧ n.next = if i + 1 < ts.length then some (k + i + 1) else none

theorem Listed.tail {mem k t ts} (h : Listed mem k (t :: ts)) : Listed mem (k + 1) ts := by
  refine ⟨fun i u hu => ?_⟩
  obtain ⟨n, h1, h2, h3⟩ := h.tok (i + 1) u hu
  refine ⟨n, by rw [← h1]; congr 1; omega, h2, ?_⟩
  rw [h3, List.length_cons]
  have e : k + (i + 1) + 1 = k + 1 + i + 1 := by omega
  rw [e]
  by_cases hi : i + 1 < ts.length
  · rw [if_pos hi, if_pos (by omega)]
  · rw [if_neg hi, if_neg (by omega)]

theorem listed_tokens {mem : List Node} : ∀ (ts : List Token) (k fuel : Nat), Listed mem k ts → ts ≠ [] → ts.length ≤ fuel →
    tokensFrom mem fuel (some k) = some ts := by
  intro ts
  induction ts with
  | nil => intro k fuel _ h; exact absurd rfl h
  | cons t ts ih =>
    intro k fuel h _ hf
    cases fuel with
    | zero => simp at hf
    | succ fuel =>
      obtain ⟨n, h1, h2, h3⟩ := h.tok 0 t rfl
      rw [Nat.add_zero] at h1
      unfold tokensFrom
      rw [h1]
      dsimp only
      rw [h3]
      cases ts with
      | nil =>
        rw [if_neg (by simp)]
        cases fuel <;> simp [tokensFrom, h2]
      | cons u us =>
        rw [if_pos (by simp), Nat.add_zero, ih (k + 1) fuel h.tail (by simp) (by simpa using hf)]
        simp [h2]

theorem listed_free {mem : List Node} : ∀ (ts : List Token) (k n fuel : Nat), Listed mem k ts → ts ≠ [] → ts.length ≤ fuel → k + ts.length ≤ n →
    ∃ es, freeTokens mem fuel (some k) = some es ∧ memRun (between k n) es = some (between (k + ts.length) n) := by
  intro ts
  induction ts with
  | nil => intro k n fuel _ h; exact absurd rfl h
  | cons t ts ih =>
    intro k n fuel h _ hf hn
    cases fuel with
    | zero => simp at hf
    | succ fuel =>
      obtain ⟨nd, h1, h2, h3⟩ := h.tok 0 t rfl
      rw [Nat.add_zero] at h1
      unfold freeTokens
      rw [h1]
      dsimp only
      rw [h3]
      rw [List.length_cons] at hn hf
      cases ts with
      | nil =>
        rw [if_neg (by simp)]
        have hk := between_free (show k < n by omega)
        cases fuel <;> exact ⟨_, rfl, by simpa using hk⟩
      | cons u us =>
        rw [if_pos (by simp), Nat.add_zero]
        obtain ⟨es, k1, k2⟩ := ih (k + 1) n fuel h.tail (by simp) (by omega) (by omega)
        rw [k1]
        refine ⟨_, rfl, ?_⟩
        rw [memRun_append, between_free (by omega)]
        show memRun _ es = _
        rw [k2]
        congr 2
        simp; omega

theorem chain_get : ∀ (ts : List Token) (k i : Nat) (t : Token), ts[i]? = some t → (chain k ts)[i]? = some ⟨t, some (k + i + 1)⟩ := by
  intro ts
  induction ts with
  | nil => intro k i t h; cases h
  | cons u us ih =>
    intro k i t h
    cases i with
    | zero => cases h; rfl
    | succ i =>
      have := ih (k + 1) i t h
      show (chain (k + 1) us)[i]? = _
      rw [this]
      congr 3
      omega

/-- The whole list: the finished tokens and the current one. -/
theorem Rel.listed {c s} (h : Rel c s) : Listed s.mem 0 (c.token :: c.done).reverse := by
  refine ⟨fun i t ht => ?_⟩
  rw [List.reverse_cons] at ht ⊢
  by_cases hi : i < c.done.reverse.length
  · rw [List.getElem?_append_left hi] at ht
    have hm := chain_get _ 0 i t ht
    refine ⟨_, by rw [h.mem, Nat.zero_add, List.getElem?_append_left (by rw [chain_length]; exact hi)]; exact hm, rfl, ?_⟩
    rw [if_pos (by simp at hi ⊢; omega)]
  · have hi' : i = c.done.reverse.length := by
      have := (List.getElem?_eq_some_iff.1 ht).1
      simp at this hi ⊢; omega
    subst hi'
    simp at ht
    subst ht
    refine ⟨⟨c.token, none⟩, ?_, rfl, ?_⟩
    · rw [h.mem, Nat.zero_add, List.getElem?_append_right (by simp [chain_length])]
      simp [chain_length]
    · simp

/-- The list without the current token, when `next` of the one before it has been set to null. -/
theorem Rel.listed_popped {c s} (h : Rel c s) (hd : c.done ≠ []) {n : Node} (hn : s.mem[c.done.length - 1]? = some n) :
    Listed (s.mem.set (c.done.length - 1) { n with next := none }) 0 c.done.reverse := by
  have hpos : 0 < c.done.length := List.length_pos_iff.2 hd
  refine ⟨fun i t ht => ?_⟩
  have hi : i < c.done.reverse.length := (List.getElem?_eq_some_iff.1 ht).1
  have hm := chain_get _ 0 i t ht
  rw [Nat.zero_add] at hm ⊢
  have hm' : s.mem[i]? = some ⟨t, some (i + 1)⟩ := by
    rw [h.mem, List.getElem?_append_left (by rw [chain_length]; exact hi)]; exact hm
  simp only [List.length_reverse] at hi ⊢
  by_cases he : i = c.done.length - 1
  · subst he
    rw [hm'] at hn
    cases hn
    refine ⟨_, by rw [List.getElem?_set_self (by rw [h.length]; omega)], rfl, ?_⟩
    rw [if_neg (by omega)]
  · refine ⟨_, by rw [List.getElem?_set_ne (by omega)]; exact hm', rfl, ?_⟩
    rw [if_pos (by omega)]

/-- After `tokenize`: the list is there, what is in it is allocated, and all else has been freed or was never made. -/
structure Made (mem : List Node) (evs : List Event) (ts : List Token) : Prop where
  list : Listed mem 0 ts
  notNil : ts ≠ []
  enough : ts.length ≤ mem.length
  run : ∃ n, ts.length ≤ n ∧ memRun (fun _ => .fresh) evs = some (fun b => if b < ts.length then .live else if b < n then .freed else .fresh)

theorem finish_made {c s} (h : Rel c s) (hl : LastOk c s) : ∃ s', finish s = .ok () s' ∧ Made s'.mem s'.evs (finishTokens c) := by
  obtain ⟨s1, a1, a2, a3⟩ := readTok_ok h
  have hl1 : LastOk c s1 := fun hd => by rw [a3]; exact hl hd
  unfold finish finishTokens
  rw [bind_ok a1]
  have live : ∀ n, first n = fun b => if b < n then .live else if b < n then .freed else .fresh := by
    intro n; funext b; unfold first; split
    · rfl
    · rfl
  cases hb : c.token.begin with
  | some b =>
    dsimp only
    obtain ⟨s2, b1, b2, b3⟩ := setLen_ok a2 b
    refine ⟨s2, b1, b2.listed, by simp, by rw [b2.length]; simp, c.done.length + 1, by simp, ?_⟩
    rw [b2.evs, live]
    simp
  | none =>
    dsimp only
    rw [bind_ok (show get s1 = .ok s1 s1 from rfl), a2.token]
    cases hd : c.done with
    | nil =>
      refine ⟨s1, rfl, ?_, by simp, by rw [a2.length]; simp, 1, by simp, ?_⟩
      · have := a2.listed; rw [hd] at this; simpa using this
      · rw [a2.evs, live, hd]; simp
    | cons t ts =>
      have hne : c.done ≠ [] := by rw [hd]; simp
      have hlast := hl1 hne
      have hlen : s1.last = c.done.length - 1 := by omega
      have hget : ∃ n, s1.mem[s1.last]? = some n := by
        have : s1.last < s1.mem.length := by rw [a2.length]; omega
        exact ⟨_, List.getElem?_eq_getElem this⟩
      obtain ⟨n, hn⟩ := hget
      rw [if_neg (by simp), hn]
      refine ⟨_, rfl, ?_⟩
      rw [hlen] at hn
      have hL := a2.listed_popped hne hn
      have he : (t :: ts).isEmpty = false := rfl
      rw [he, ← hd]
      refine ⟨?_, by simpa using hne, ?_, c.done.length + 1, by simp, ?_⟩
      · show Listed (s1.mem.set s1.last _) 0 _
        rw [hlen]; exact hL
      · show _ ≤ (s1.mem.set s1.last _).length
        rw [List.length_set, a2.length]; simp
      · show memRun _ (s1.evs ++ [.use s1.last, .free s1.token]) = _
        rw [memRun_append, a2.evs, a2.token]
        show memRun (first (c.done.length + 1)) _ = _
        have u : first (c.done.length + 1) s1.last = .live := by unfold first; rw [if_pos (by omega)]
        have v : first (c.done.length + 1) c.done.length = .live := by unfold first; rw [if_pos (by omega)]
        simp only [memRun, memStep, u, v, if_true]
        congr 1
        funext b
        unfold setLife first
        simp only [Bool.false_eq_true, if_false, List.length_reverse]
        repeat' split
        all_goals first | rfl | omega

theorem start_rel (code : List Char) : Rel { code := code } { code := code } := by
  refine ⟨rfl, rfl, rfl, rfl, rfl, ?_⟩
  simp only [memRun, memStep, if_true]
  congr 1
  funext b
  unfold setLife first
  by_cases h : b = 0
  · subst h; rfl
  · rw [if_neg h, if_neg (by simp; omega)]

theorem tokenizeFrom_made {code r} (h : Skull.tokenizeFrom code = some r) :
    match r with
    | .ok ts => ∃ mem evs, tokenizeFrom code = some (.ok mem evs) ∧ Made mem evs ts
    | .err e l k => ∃ evs, tokenizeFrom code = some (.err e l k evs) ∧ MemClean evs
    | .ub => True := by
  unfold Skull.tokenizeFrom at h
  cases hl : tokenizeLoop (code.length + 1) { code := code } with
  | none => rw [hl] at h; cases h
  | some r0 =>
    rw [hl] at h
    have hd := loop_does _ _ _ (start_rel code) (fun hd => absurd rfl hd) _ hl
    unfold tokenizeFrom
    cases r0 with
    | ub => cases h; trivial
    | ok c =>
      cases h
      rcases hd with hd | ⟨o, h1, s, rfl, h2, h3⟩
      · cases hd
      · obtain ⟨s', k1, k2⟩ := finish_made h2 h3
        rw [h1]
        dsimp only
        rw [k1]
        exact ⟨_, _, rfl, k2⟩
    | err e l k =>
      cases h
      rcases hd with hd | ⟨o, h1, s, c, rfl, h2⟩
      · cases hd
      · rw [h1]
        dsimp only
        have hlen : (c.token :: c.done).reverse.length = s.mem.length := by rw [h2.length]; simp
        obtain ⟨es, k1, k2⟩ := listed_free _ 0 s.mem.length (s.mem.length + 1) h2.listed (by simp) (by omega) (by omega)
        rw [k1]
        refine ⟨_, rfl, between (0 + (c.token :: c.done).reverse.length) s.mem.length, ?_, ?_⟩
        · rw [memRun_append, h2.evs, ← h2.length]
          show memRun _ es = _
          rw [← k2]
          congr 1
        · intro b
          unfold between
          rw [hlen]
          repeat' split
          all_goals first | omega | simp

theorem made_freed {mem evs ts} (h : Made mem evs ts) : ∃ es, freeTokens mem mem.length (some 0) = some es ∧ MemClean (evs ++ es) := by
  obtain ⟨n, hn, hr⟩ := h.run
  have free : ∀ (us : List Token) (k fuel : Nat), Listed mem k us → us ≠ [] → us.length ≤ fuel →
      ∃ es, freeTokens mem fuel (some k) = some es ∧
        memRun (fun b => if b < k then Life.freed else if b < k + us.length then .live else if b < n then .freed else .fresh) es =
          some (fun b => if b < k + us.length then .freed else if b < n then .freed else .fresh) := by
    intro us
    induction us with
    | nil => intro k fuel _ h; exact absurd rfl h
    | cons t us ih =>
      intro k fuel hl _ hf
      cases fuel with
      | zero => simp at hf
      | succ fuel =>
        obtain ⟨nd, h1, h2, h3⟩ := hl.tok 0 t rfl
        rw [Nat.add_zero] at h1
        unfold freeTokens
        rw [h1]
        dsimp only
        rw [h3]
        have one : memRun (fun b => if b < k then Life.freed else if b < k + (t :: us).length then .live else if b < n then .freed else .fresh)
            [.use k, .use k, .free k] =
            some (fun b => if b < k + 1 then Life.freed else if b < k + 1 + us.length then .live else if b < n then .freed else .fresh) := by
          have lv : (fun b => if b < k then Life.freed else if b < k + (t :: us).length then .live else if b < n then .freed
              else .fresh) k = .live := by
            have : k < k + (t :: us).length := by simp
            simp [this]
          simp only [memRun, memStep, lv, if_true]
          congr 1
          funext b
          have e : (t :: us).length = us.length + 1 := rfl
          by_cases h1 : b = k
          · subst h1
            simp [setLife]
          · simp only [setLife, if_neg h1]
            repeat' split
            all_goals first | rfl | omega
        cases us with
        | nil =>
          rw [if_neg (by simp)]
          refine ⟨[.use k, .use k, .free k], by cases fuel <;> rfl, ?_⟩
          rw [one]
          congr 1
          funext b
          simp only [List.length_cons, List.length_nil]
          repeat' split
          all_goals first | rfl | omega
        | cons u us =>
          rw [if_pos (by simp), Nat.add_zero]
          obtain ⟨es, k1, k2⟩ := ih (k + 1) fuel hl.tail (by simp) (by simpa using hf)
          rw [k1]
          refine ⟨_, rfl, ?_⟩
          rw [memRun_append, one]
          show memRun _ es = _
          rw [k2]
          congr 1
          funext b
          simp only [List.length_cons]
          repeat' split
          all_goals first | rfl | omega
  obtain ⟨es, h1, h2⟩ := free ts 0 mem.length h.list h.notNil h.enough
  refine ⟨es, h1, fun b => if b < 0 + ts.length then .freed else if b < n then .freed else .fresh, ?_, ?_⟩
  · rw [memRun_append, hr]
    show memRun _ es = _
    rw [← h2]
    congr 1
    funext b
    simp
  · intro b
    dsimp only
    repeat' split
    all_goals simp

end Skull.THeap
