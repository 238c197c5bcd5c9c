import Verif.Model.Utf8
import Verif.Spec.Utf8Spec
/-
The decoder inverts the encoder.
-/
namespace Skull
open Spec

theorem ofNat_toNat_lt {n : Nat} (h : n < 256) : (UInt8.ofNat n).toNat = n := by
  simp [Nat.mod_eq_of_lt h]

theorem eq_ofNat {b : UInt8} {n : Nat} (h : b.toNat = n) : b = UInt8.ofNat n := by
  rw [← h, UInt8.ofNat_toNat]

theorem valid_char (c : Char) : c.toNat.isValidChar := c.valid

theorem toNat_ofNat_valid {v : Nat} (h : v.isValidChar) : (Char.ofNat v).toNat = v := by
  simp [Char.ofNat, h, Char.toNat, Char.ofNatAux]

theorem enc1 (c : Char) (v : Nat) (h : c.toNat = v) (h1 : v ≤ 127) : String.utf8EncodeChar c = [UInt8.ofNat v] := by
  subst h
  unfold String.utf8EncodeChar
  have e : c.val.toNat = c.toNat := rfl
  simp only [e, h1, if_true]

theorem enc2 (c : Char) (v : Nat) (h : c.toNat = v) (h1 : ¬ v ≤ 127) (h2 : v ≤ 2047) : String.utf8EncodeChar c =
    [UInt8.ofNat (v / 64 % 32 + 192), UInt8.ofNat (v % 64 + 128)] := by
  subst h
  unfold String.utf8EncodeChar
  have e : c.val.toNat = c.toNat := rfl
  simp only [e, h1, h2, if_true, if_false]

theorem enc3 (c : Char) (v : Nat) (h : c.toNat = v) (h1 : ¬ v ≤ 127) (h2 : ¬ v ≤ 2047) (h3 : v ≤ 65535) :
    String.utf8EncodeChar c =
    [UInt8.ofNat (v / 4096 % 16 + 224), UInt8.ofNat (v / 64 % 64 + 128), UInt8.ofNat (v % 64 + 128)] := by
  subst h
  unfold String.utf8EncodeChar
  have e : c.val.toNat = c.toNat := rfl
  simp only [e, h1, h2, h3, if_true, if_false]

theorem enc4 (c : Char) (v : Nat) (h : c.toNat = v) (h1 : ¬ v ≤ 127) (h2 : ¬ v ≤ 2047) (h3 : ¬ v ≤ 65535) :
    String.utf8EncodeChar c =
    [UInt8.ofNat (v / 262144 % 8 + 240), UInt8.ofNat (v / 4096 % 64 + 128), UInt8.ofNat (v / 64 % 64 + 128),
      UInt8.ofNat (v % 64 + 128)] := by
  subst h
  unfold String.utf8EncodeChar
  have e : c.val.toNat = c.toNat := rfl
  simp only [e, h1, h2, h3, if_false]

theorem scalarFrom_ok {lo v n : Nat} (h : lo ≤ v) (hv : v.isValidChar) : scalarFrom lo v n = some (Char.ofNat v, n) := by
  unfold scalarFrom
  rw [if_pos ⟨h, hv⟩]

theorem contBits_ofNat {n : Nat} (h : n < 256) : contBits (UInt8.ofNat n) = n - 128 := by
  unfold contBits
  rw [ofNat_toNat_lt h]

theorem decode_encode (c : Char) (rest : List UInt8) :
    mbrtoc32 (String.utf8EncodeChar c ++ rest) = some (c, (String.utf8EncodeChar c).length) := by
  have hv := valid_char c
  have hc : Char.ofNat c.toNat = c := Char.ofNat_toNat c
  have hlt : c.toNat < 0x110000 := by
    rcases hv with h | ⟨_, h⟩ <;> omega
  generalize hn : c.toNat = v at hv hc hlt
  by_cases h1 : v ≤ 127
  · rw [enc1 c v hn h1]
    simp only [List.cons_append, List.nil_append, mbrtoc32, ofNat_toNat_lt (show v < 256 by omega)]
    rw [if_pos (by omega), hc]
    rfl
  · by_cases h2 : v ≤ 2047
    · rw [enc2 c v hn h1 h2]
      have a1 : (UInt8.ofNat (v / 64 % 32 + 192)).toNat = v / 64 % 32 + 192 := ofNat_toNat_lt (by omega)
      have a2 : (UInt8.ofNat (v % 64 + 128)).toNat = v % 64 + 128 := ofNat_toNat_lt (by omega)
      simp only [List.cons_append, List.nil_append, mbrtoc32, a1]
      rw [if_neg (by omega), if_neg (by omega), if_pos (by omega)]
      have hcont : isCont (UInt8.ofNat (v % 64 + 128)) = true := by simp [isCont]; omega
      rw [if_pos hcont]
      rw [contBits_ofNat (n := v % 64 + 128) (by omega)]
      rw [show (v / 64 % 32 + 192 - 192) * 64 + (v % 64 + 128 - 128) = v by omega, scalarFrom_ok (by omega) hv, hc]
      simp only [List.length_cons, List.length_nil]
    · by_cases h3 : v ≤ 65535
      · rw [enc3 c v hn h1 h2 h3]
        have a1 : (UInt8.ofNat (v / 4096 % 16 + 224)).toNat = v / 4096 % 16 + 224 := ofNat_toNat_lt (by omega)
        have a2 : (UInt8.ofNat (v / 64 % 64 + 128)).toNat = v / 64 % 64 + 128 := ofNat_toNat_lt (by omega)
        have a3 : (UInt8.ofNat (v % 64 + 128)).toNat = v % 64 + 128 := ofNat_toNat_lt (by omega)
        simp only [List.cons_append, List.nil_append, mbrtoc32, a1]
        rw [if_neg (by omega), if_neg (by omega), if_neg (by omega), if_pos (by omega)]
        have hc2 : isCont (UInt8.ofNat (v / 64 % 64 + 128)) = true := by simp [isCont]; omega
        have hc3 : isCont (UInt8.ofNat (v % 64 + 128)) = true := by simp [isCont]; omega
        rw [if_pos (by rw [hc2, hc3]; rfl)]
        rw [contBits_ofNat (n := v / 64 % 64 + 128) (by omega), contBits_ofNat (n := v % 64 + 128) (by omega)]
        rw [show ((v / 4096 % 16 + 224 - 224) * 64 + (v / 64 % 64 + 128 - 128)) * 64 + (v % 64 + 128 - 128) = v by omega,
          scalarFrom_ok (by omega) hv, hc]
        simp only [List.length_cons, List.length_nil]
      · rw [enc4 c v hn h1 h2 h3]
        have a1 : (UInt8.ofNat (v / 262144 % 8 + 240)).toNat = v / 262144 % 8 + 240 := ofNat_toNat_lt (by omega)
        have a2 : (UInt8.ofNat (v / 4096 % 64 + 128)).toNat = v / 4096 % 64 + 128 := ofNat_toNat_lt (by omega)
        have a3 : (UInt8.ofNat (v / 64 % 64 + 128)).toNat = v / 64 % 64 + 128 := ofNat_toNat_lt (by omega)
        have a4 : (UInt8.ofNat (v % 64 + 128)).toNat = v % 64 + 128 := ofNat_toNat_lt (by omega)
        simp only [List.cons_append, List.nil_append, mbrtoc32, a1]
        rw [if_neg (by omega), if_neg (by omega), if_neg (by omega), if_neg (by omega), if_pos (by omega)]
        have hc2 : isCont (UInt8.ofNat (v / 4096 % 64 + 128)) = true := by simp [isCont]; omega
        have hc3 : isCont (UInt8.ofNat (v / 64 % 64 + 128)) = true := by simp [isCont]; omega
        have hc4 : isCont (UInt8.ofNat (v % 64 + 128)) = true := by simp [isCont]; omega
        rw [if_pos (by rw [hc2, hc3, hc4]; rfl)]
        rw [contBits_ofNat (n := v / 4096 % 64 + 128) (by omega), contBits_ofNat (n := v / 64 % 64 + 128) (by omega), contBits_ofNat (n := v % 64 + 128) (by omega)]
        rw [show (((v / 262144 % 8 + 240 - 240) * 64 + (v / 4096 % 64 + 128 - 128)) * 64 + (v / 64 % 64 + 128 - 128)) * 64 +
          (v % 64 + 128 - 128) = v by omega, scalarFrom_ok (by omega) hv, hc]
        simp only [List.length_cons, List.length_nil]

theorem scalarFrom_some {lo v n m : Nat} {c : Char} (h : scalarFrom lo v n = some (c, m)) :
    c.toNat = v ∧ lo ≤ v ∧ m = n := by
  unfold scalarFrom at h
  split at h
  · rename_i hv
    simp only [Option.some.injEq, Prod.mk.injEq] at h
    obtain ⟨rfl, rfl⟩ := h
    exact ⟨toNat_ofNat_valid hv.2, hv.1, rfl⟩
  · simp at h

theorem isCont_range {b : UInt8} (h : isCont b = true) : 128 ≤ b.toNat ∧ b.toNat ≤ 191 := by
  simpa [isCont] using h

theorem encode_decode (s : List UInt8) (c : Char) (n : Nat) (h : mbrtoc32 s = some (c, n)) :
    s = String.utf8EncodeChar c ++ s.drop n ∧ n = (String.utf8EncodeChar c).length := by
  cases s with
  | nil => simp [mbrtoc32] at h
  | cons b0 rest =>
    have hb0 := b0.toNat_lt
    simp only [mbrtoc32] at h
    split at h
    · rename_i h1
      simp only [Option.some.injEq, Prod.mk.injEq] at h
      obtain ⟨rfl, rfl⟩ := h
      have : (Char.ofNat b0.toNat).toNat = b0.toNat := toNat_ofNat_valid (Or.inl (by omega))
      rw [enc1 _ _ this (by omega)]
      exact ⟨by simp, rfl⟩
    · split at h
      · simp at h
      · split at h
        · split at h
          · rename_i b1 r
            split at h
            · rename_i hc1
              have r1 := isCont_range hc1
              obtain ⟨h1, h2, rfl⟩ := scalarFrom_some h
              unfold contBits at h1 h2
              rw [enc2 c _ h1 (by omega) (by omega)]
              refine ⟨?_, by simp only [List.length_cons, List.length_nil]⟩
              simp only [List.cons_append, List.nil_append, List.drop_succ_cons, List.drop_zero]
              rw [← eq_ofNat (b := b0) (by omega), ← eq_ofNat (b := b1) (by omega)]
            · simp at h
          · simp at h
        · split at h
          · split at h
            · rename_i b1 b2 r
              split at h
              · rename_i hc
                simp only [Bool.and_eq_true] at hc
                have r1 := isCont_range hc.1
                have r2 := isCont_range hc.2
                obtain ⟨h1, h2, rfl⟩ := scalarFrom_some h
                unfold contBits at h1 h2
                rw [enc3 c _ h1 (by omega) (by omega) (by omega)]
                refine ⟨?_, by simp only [List.length_cons, List.length_nil]⟩
                simp only [List.cons_append, List.nil_append, List.drop_succ_cons, List.drop_zero]
                rw [← eq_ofNat (b := b0) (by omega), ← eq_ofNat (b := b1) (by omega), ← eq_ofNat (b := b2) (by omega)]
              · simp at h
            · simp at h
          · split at h
            · split at h
              · rename_i b1 b2 b3 r
                split at h
                · rename_i hc
                  simp only [Bool.and_eq_true] at hc
                  have r1 := isCont_range hc.1.1
                  have r2 := isCont_range hc.1.2
                  have r3 := isCont_range hc.2
                  obtain ⟨h1, h2, rfl⟩ := scalarFrom_some h
                  unfold contBits at h1 h2
                  rw [enc4 c _ h1 (by omega) (by omega) (by omega)]
                  refine ⟨?_, by simp only [List.length_cons, List.length_nil]⟩
                  simp only [List.cons_append, List.nil_append, List.drop_succ_cons, List.drop_zero]
                  rw [← eq_ofNat (b := b0) (by omega), ← eq_ofNat (b := b1) (by omega), ← eq_ofNat (b := b2) (by omega),
                    ← eq_ofNat (b := b3) (by omega)]
                · simp at h
              · simp at h
            · simp at h

theorem encode_ne_nil (c : Char) : String.utf8EncodeChar c ≠ [] := String.utf8EncodeChar_ne_nil

theorem encode_length_ne (c : Char) : (String.utf8EncodeChar c).length ≠ 0 :=
  fun h => encode_ne_nil c (List.eq_nil_of_length_eq_zero h)

theorem mbLoop_skip (s : List UInt8) (k : Nat) : mbLoop k s = mbLoop 0 (s.drop k) := by
  induction s generalizing k with
  | nil => cases k <;> rfl
  | cons b s ih =>
    cases k with
    | zero => rfl
    | succ k => rw [mbLoop, ih k]; rfl

theorem mbLoop_cons {s : List UInt8} {c : Char} {n : Nat} (h : mbrtoc32 s = some (c, n)) (hn : n ≠ 0) :
    mbLoop 0 s = (mbLoop 0 (s.drop n)).map (c :: ·) := by
  cases s with
  | nil => simp [mbrtoc32] at h
  | cons b s =>
    rw [mbLoop, h]
    simp only [hn, if_false]
    rw [mbLoop_skip]
    cases n with
    | zero => exact absurd rfl hn
    | succ n => rfl

theorem mbstoc32s_utf8 (text : List Char) : mbstoc32s (utf8 text) = some text := by
  induction text with
  | nil => rfl
  | cons c text ih =>
    have h := decode_encode c (utf8 text)
    rw [mbstoc32s, show utf8 (c :: text) = String.utf8EncodeChar c ++ utf8 text from rfl,
      mbLoop_cons h (encode_length_ne c), List.drop_left]
    rw [mbstoc32s] at ih
    rw [ih]; rfl

theorem utf8_of_mbstoc32s (s : List UInt8) (text : List Char) (h : mbstoc32s s = some text) : s = utf8 text := by
  generalize hn : s.length = n
  induction n using Nat.strongRecOn generalizing s text with
  | _ n ih =>
    cases s with
    | nil =>
      simp only [mbstoc32s, mbLoop, Option.some.injEq] at h
      subst h; rfl
    | cons b s =>
      cases hd : mbrtoc32 (b :: s) with
      | none =>
        rw [mbstoc32s, mbLoop, hd] at h
        simp at h
      | some r =>
        obtain ⟨c, k⟩ := r
        obtain ⟨h1, h2⟩ := encode_decode _ _ _ hd
        have hk : k ≠ 0 := by
          rw [h2]
          exact encode_length_ne c
        rw [mbstoc32s, mbLoop_cons hd hk] at h
        cases ht : mbLoop 0 ((b :: s).drop k) with
        | none => rw [ht] at h; simp at h
        | some t =>
          rw [ht] at h
          simp only [Option.map_some, Option.some.injEq] at h
          subst h
          have := ih ((b :: s).drop k).length (by rw [← hn]; simp; omega) _ t ht rfl
          rw [h1, this]
          rfl

theorem c32stombs_eq (text : List Char) : c32stombs text = utf8 text := by
  induction text with
  | nil => rfl
  | cons c s ih => rw [c32stombs, ih]; rfl

end Skull
