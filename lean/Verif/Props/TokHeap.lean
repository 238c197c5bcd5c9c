import Verif.Proofs.TokHeap
import Verif.Props.Token
/-
C83: the list of tokens is well formed, and its memory is freed once.
-/
namespace Skull
open Spec

/-- For every text the tokenizer ends and uses only memory that is there.  After an error it has freed all it allocated.  Otherwise what
it allocated and did not free is the list of tokens that it gives, which has an end; freeing that list frees each block once and leaves none. -/
theorem C83_memory_clean (werror : Bool) (src : List Char) :
    (∃ e l k evs, THeap.tokenize werror src = some (.err e l k evs) ∧ MemClean evs) ∨
    (∃ mem evs ts es, THeap.tokenize werror src = some (.ok mem evs) ∧ THeap.tokensFrom mem mem.length (some 0) = some ts ∧
      THeap.freeTokens mem mem.length (some 0) = some es ∧ MemSafe evs ∧ MemClean (evs ++ es)) := by
  have key : ∀ code : List Char,
      (∃ e l k evs, THeap.tokenizeFrom code = some (.err e l k evs) ∧ MemClean evs) ∨
      (∃ mem evs ts es, THeap.tokenizeFrom code = some (.ok mem evs) ∧ THeap.tokensFrom mem mem.length (some 0) = some ts ∧
        THeap.freeTokens mem mem.length (some 0) = some es ∧ MemSafe evs ∧ MemClean (evs ++ es)) := by
    intro code
    rcases tokenizeFrom_total code with ⟨ts, h⟩ | ⟨e, l, k, h⟩
    · obtain ⟨mem, evs, h1, hm⟩ := THeap.tokenizeFrom_made h
      obtain ⟨n, hn, hr⟩ := hm.run
      obtain ⟨es, h2, h3⟩ := THeap.made_freed hm
      exact .inr ⟨mem, evs, ts, es, h1, THeap.listed_tokens ts 0 mem.length hm.list hm.notNil hm.enough, h2, ⟨_, hr⟩, h3⟩
    · obtain ⟨evs, h1, h2⟩ := THeap.tokenizeFrom_made h
      exact .inl ⟨e, l, k, evs, h1, h2⟩
  unfold THeap.tokenize
  split
  · split
    · split
      · exact .inl ⟨_, _, _, _, rfl, _, rfl, fun b h => by cases h⟩
      · exact key _
    · exact key _
  · exact key _

/-- The tokens in memory, from the first one to the one whose `next` is null, are those the other theorems about the tokenizer are about,
and so are the errors. -/
theorem C83_same (werror : Bool) (src : List Char) :
    match tokenize werror src with
    | some (.ok ts) => ∃ mem evs, THeap.tokenize werror src = some (.ok mem evs) ∧ THeap.tokensFrom mem mem.length (some 0) = some ts
    | some (.err e l k) => ∃ evs, THeap.tokenize werror src = some (.err e l k evs)
    | _ => False := by
  have key : ∀ code : List Char,
      match tokenizeFrom code with
      | some (.ok ts) => ∃ mem evs, THeap.tokenizeFrom code = some (.ok mem evs) ∧ THeap.tokensFrom mem mem.length (some 0) = some ts
      | some (.err e l k) => ∃ evs, THeap.tokenizeFrom code = some (.err e l k evs)
      | _ => False := by
    intro code
    rcases tokenizeFrom_total code with ⟨ts, h⟩ | ⟨e, l, k, h⟩
    · rw [h]
      obtain ⟨mem, evs, h1, hm⟩ := THeap.tokenizeFrom_made h
      exact ⟨mem, evs, h1, THeap.listed_tokens ts 0 mem.length hm.list hm.notNil hm.enough⟩
    · rw [h]
      obtain ⟨evs, h1, _⟩ := THeap.tokenizeFrom_made h
      exact ⟨evs, h1⟩
  unfold THeap.tokenize tokenize
  cases src with
  | nil => exact key []
  | cons c code =>
    by_cases hc : c = bomChar
    · cases werror with
      | true => simp only [if_pos hc, if_true]; exact ⟨_, rfl⟩
      | false => simpa only [if_pos hc, if_neg Bool.false_ne_true] using key code
    · simpa only [if_neg hc] using key (c :: code)

/- ### Examples -/

/-- The token behind the last newline is popped and freed; the other two stay. -/
example : THeap.tokenize false "ab\n".toList = some (.ok
    [⟨{ begin := some "ab\n".toList, len := 2, line := 1, col := 1 }, some 1⟩,
     ⟨{ begin := some "\n".toList, len := 1, ty := .newline, line := 1, col := 3 }, none⟩, {}]
    [.alloc 0, .use 0, .use 0, .use 0, .use 0, .use 0, .alloc 1, .use 0, .use 1, .use 1, .alloc 2, .use 1, .use 2, .use 1, .free 2]) := by
  decide +kernel

/-- After an error nothing is left. -/
example : THeap.tokenize false "a\n#b".toList = some (.err .invalidCommentStart 2 1
    [.alloc 0, .use 0, .use 0, .use 0, .use 0, .alloc 1, .use 0, .use 1, .use 1, .alloc 2, .use 1,
     .use 0, .use 0, .free 0, .use 1, .use 1, .free 1, .use 2, .use 2, .free 2]) := by
  decide +kernel

end Skull
