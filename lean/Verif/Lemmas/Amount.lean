import Verif.Model.Amount
import Verif.Lemmas.Text
/-! Lemmas about base32, byte strings and coin amount text. -/
namespace Rgb.Base32

theorem decChar_encChar {v : Nat} (h : v < 32) : decChar (encChar v) = some v := by
  have : ∀ v : Fin 32, decChar (encChar v) = some v.val := by decide
  exact this ⟨v, h⟩

theorem encChar_mem {v : Nat} (h : v < 32) : encChar v ∈ alphabet := by
  have : ∀ v : Fin 32, encChar v ∈ alphabet := by decide
  exact this ⟨v, h⟩

theorem decChar_isSome {c : Char} : (decChar c).isSome ↔ c ∈ alphabet := by
  simp [decChar, List.findIdx?_isSome]

theorem decChar_lt {c : Char} {v : Nat} (h : decChar c = some v) : v < 32 := by
  have h1 := (List.findIdx?_eq_some_iff_findIdx_eq.mp h).1
  have h2 : alphabet.length = 32 := by decide
  omega

theorem bits8_val {n : Nat} (h : n < 256) : bitsVal (bits8 n) = n := by
  have : ∀ n : Fin 256, bitsVal (bits8 n.val) = n.val := by decide +kernel
  exact this ⟨n, h⟩

theorem bits5_bitsVal (a b c d e : Bool) : bits5 (bitsVal [a, b, c, d, e]) = [a, b, c, d, e] := by
  revert a b c d e; decide

theorem bitsVal5_lt (a b c d e : Bool) : bitsVal [a, b, c, d, e] < 32 := by
  revert a b c d e; decide

theorem bitsVal8_lt (a b c d e f g h : Bool) : bitsVal [a, b, c, d, e, f, g, h] < 256 := by
  revert a b c d e f g h; decide

theorem pack5_unpack (l : List Bool) :
    ∃ k, k < 5 ∧ (pack5 l).flatMap bits5 = l ++ List.replicate k false := by
  induction l using pack5.induct with
  | case1 a b c d e r ih =>
    obtain ⟨k, hk, h⟩ := ih
    exact ⟨k, hk, by simp only [pack5, List.flatMap_cons, bits5_bitsVal, h]; simp⟩
  | case2 a b c d => exact ⟨1, by omega, by simp [pack5, bits5_bitsVal]⟩
  | case3 a b c => exact ⟨2, by omega, by simp [pack5, bits5_bitsVal, List.replicate]⟩
  | case4 a b => exact ⟨3, by omega, by simp [pack5, bits5_bitsVal, List.replicate]⟩
  | case5 a => exact ⟨4, by omega, by simp [pack5, bits5_bitsVal, List.replicate]⟩
  | case6 => exact ⟨0, by omega, by simp [pack5]⟩

theorem pack5_lt (l : List Bool) : ∀ v ∈ pack5 l, v < 32 := by
  induction l using pack5.induct with
  | case1 a b c d e r ih =>
    simp only [pack5, List.mem_cons]
    rintro v (rfl | h)
    · exact bitsVal5_lt ..
    · exact ih v h
  | _ => simp [pack5, bitsVal5_lt]

theorem pack5_length (l : List Bool) : (pack5 l).length = (l.length + 4) / 5 := by
  induction l using pack5.induct with
  | case1 a b c d e r ih => simp only [pack5, List.length_cons, ih]; omega
  | _ => simp [pack5]

theorem pack8_bytes (bs : List Nat) (hb : ∀ b ∈ bs, b < 256) (t : List Bool) (ht : t.length < 8) :
    pack8 (bs.flatMap bits8 ++ t) = (bs, t) := by
  induction bs with
  | nil =>
    simp only [List.flatMap_nil, List.nil_append]
    match t, ht with
    | [], _ | [_], _ | [_, _], _ | [_, _, _], _ | [_, _, _, _], _ | [_, _, _, _, _], _
    | [_, _, _, _, _, _], _ | [_, _, _, _, _, _, _], _ => simp [pack8]
    | _ :: _ :: _ :: _ :: _ :: _ :: _ :: _ :: _, h => simp at h; omega
  | cons b bs ih =>
    have h := ih (fun x hx => hb x (by simp [hx]))
    have hv := bits8_val (hb b (by simp))
    simp only [List.flatMap_cons, bits8, List.cons_append, List.nil_append, pack8] at *
    rw [h]; simp only [hv]

theorem mapM_decChar (vs : List Nat) (h : ∀ v ∈ vs, v < 32) : (vs.map encChar).mapM decChar = some vs := by
  induction vs with
  | nil => rfl
  | cons v vs ih =>
    simp only [List.map_cons, List.mapM_cons]
    rw [decChar_encChar (h v (by simp)), ih (fun x hx => h x (by simp [hx]))]; rfl

theorem flatMap_bits8_length (bs : List Nat) : (bs.flatMap bits8).length = 8 * bs.length := by
  induction bs with
  | nil => rfl
  | cons b bs ih => simp only [List.flatMap_cons, List.length_append, ih, List.length_cons, bits8]; simp; omega

theorem flatMap_bits5_length (bs : List Nat) : (bs.flatMap bits5).length = 5 * bs.length := by
  induction bs with
  | nil => rfl
  | cons b bs ih => simp only [List.flatMap_cons, List.length_append, ih, List.length_cons, bits5]; simp; omega

theorem decode_encode (sp : Bool) (bs : List Nat) (hb : ∀ b ∈ bs, b < 256) :
    decode sp (encode bs) = some bs := by
  have hlen : (encode bs).length = (8 * bs.length + 4) / 5 := by
    rw [encode, List.length_map, pack5_length, flatMap_bits8_length]
  have hl : ¬ ((encode bs).length % 8 = 1 ∨ (encode bs).length % 8 = 3 ∨ (encode bs).length % 8 = 6) := by
    rw [hlen]; omega
  unfold decode
  rw [if_neg hl]
  have hm : (encode bs).mapM decChar = some (pack5 (bs.flatMap bits8)) :=
    mapM_decChar _ (pack5_lt _)
  rw [hm]
  obtain ⟨k, hk, h⟩ := pack5_unpack (bs.flatMap bits8)
  simp only
  rw [h, pack8_bytes bs hb _ (by simp; omega)]
  simp

theorem encode_mem_alphabet (bs : List Nat) : ∀ c ∈ encode bs, c ∈ alphabet := by
  simp only [encode, List.mem_map]
  rintro c ⟨v, hv, rfl⟩
  exact encChar_mem (pack5_lt _ v hv)

theorem encode_length (bs : List Nat) : (encode bs).length = (8 * bs.length + 4) / 5 := by
  rw [encode, List.length_map, pack5_length, flatMap_bits8_length]

theorem mapM_decChar_none {s : Text} {c : Char} (hc : c ∈ s) (ha : c ∉ alphabet) : s.mapM decChar = none := by
  induction s with
  | nil => simp at hc
  | cons x xs ih =>
    simp only [List.mapM_cons]
    rcases List.mem_cons.mp hc with rfl | h
    · have : decChar c = none := by
        cases hd : decChar c with
        | none => rfl
        | some v => exact absurd (decChar_isSome.mp (by simp [hd])) ha
      simp [this]
    · rw [ih h]; cases decChar x <;> rfl

theorem mapM_decChar_some {s : Text} (ha : ∀ c ∈ s, c ∈ alphabet) :
    ∃ vs, s.mapM decChar = some vs ∧ vs.length = s.length ∧ ∀ v ∈ vs, v < 32 := by
  induction s with
  | nil => exact ⟨[], rfl, rfl, by simp⟩
  | cons x xs ih =>
    obtain ⟨vs, h, hl, hv⟩ := ih (fun c hc => ha c (by simp [hc]))
    have hx := decChar_isSome.mpr (ha x (by simp))
    obtain ⟨v, hd⟩ := Option.isSome_iff_exists.mp hx
    refine ⟨v :: vs, by simp [List.mapM_cons, hd, h], by simp [hl], ?_⟩
    simp only [List.mem_cons]
    rintro w (rfl | hw)
    · exact decChar_lt hd
    · exact hv w hw

theorem pack8_length (l : List Bool) : (pack8 l).1.length = l.length / 8 := by
  induction l using pack8.induct with
  | case1 a b c d e f g h r bs t heq ih =>
    simp only [pack8, heq] at *
    simp only [List.length_cons, ih]; omega
  | case2 t h =>
    match t, h with
    | [], _ | [_], _ | [_, _], _ | [_, _, _], _ | [_, _, _, _], _ | [_, _, _, _, _], _
    | [_, _, _, _, _, _], _ | [_, _, _, _, _, _, _], _ => simp [pack8]
    | a :: b :: c :: d :: e :: f :: g :: i :: r, h => exact absurd rfl (h a b c d e f g i r)

theorem pack8_lt (l : List Bool) : ∀ b ∈ (pack8 l).1, b < 256 := by
  induction l using pack8.induct with
  | case1 a b c d e f g h r bs t heq ih =>
    simp only [pack8, heq, List.mem_cons] at *
    rintro x (rfl | hx)
    · exact bitsVal8_lt ..
    · exact ih x hx
  | case2 t h =>
    match t, h with
    | [], _ | [_], _ | [_, _], _ | [_, _, _], _ | [_, _, _, _], _ | [_, _, _, _, _], _
    | [_, _, _, _, _, _], _ | [_, _, _, _, _, _, _], _ => simp [pack8]
    | a :: b :: c :: d :: e :: f :: g :: i :: r, h => exact absurd rfl (h a b c d e f g i r)

end Rgb.Base32

namespace Rgb

theorem ofLeBytes_lt (bs : List Nat) (h : ∀ b ∈ bs, b < 256) : ofLeBytes bs < 256 ^ bs.length := by
  induction bs with
  | nil => simp [ofLeBytes]
  | cons b bs ih =>
    have := ih (fun x hx => h x (by simp [hx]))
    have hb := h b (by simp)
    simp only [ofLeBytes, List.length_cons, Nat.pow_succ]; omega

theorem ofLeBytes_append_zeros (bs : List Nat) (k : Nat) :
    ofLeBytes (bs ++ List.replicate k 0) = ofLeBytes bs := by
  induction bs with
  | nil => induction k with
    | zero => rfl
    | succ k ih => simp [List.replicate_succ, ofLeBytes] at *; omega
  | cons b bs ih => simp [ofLeBytes, ih]

theorem ofLeBytes_leBytes {v : Nat} (h : v ≤ u64Max) : ofLeBytes (leBytes v) = v := by
  simp only [leBytes, ofLeBytes, u64Max] at *
  omega

theorem leBytes_lt (v : Nat) : ∀ b ∈ leBytes v, b < 256 := by
  simp only [leBytes, List.mem_cons, List.not_mem_nil, or_false]
  rintro b (rfl | rfl | rfl | rfl | rfl | rfl | rfl | rfl) <;> exact Nat.mod_lt _ (by omega)

/-- Dropped bytes are zeros. -/
theorem trim_spec (bs : List Nat) : ∃ k, bs = bs.take (trimPos bs) ++ List.replicate k 0 := by
  refine ⟨(bs.drop (trimPos bs)).length, ?_⟩
  have hz : ∀ b ∈ bs.drop (trimPos bs), b = 0 := by
    intro b hb
    unfold trimPos at hb
    split at hb
    · rename_i i hi
      obtain ⟨hlt, hp, hbefore⟩ := List.findIdx?_eq_some_iff_getElem.mp hi
      obtain ⟨j, hj, rfl⟩ := List.mem_iff_getElem.mp hb
      simp only [List.length_reverse] at hlt
      simp only [List.length_drop] at hj
      have := hbefore (bs.length - 1 - ((bs.length - 1 - i + 1) + j)) (by omega)
      simp only [List.getElem_reverse] at this
      rw [List.getElem_drop]
      have he : bs.length - 1 - (bs.length - 1 - ((bs.length - 1 - i + 1) + j)) = bs.length - 1 - i + 1 + j := by
        omega
      simp only [he] at this
      simpa using this
    · rename_i hn
      rw [List.findIdx?_eq_none_iff] at hn
      have := hn b (by simpa using List.mem_of_mem_drop hb)
      simpa using this
  have : bs.drop (trimPos bs) = List.replicate (bs.drop (trimPos bs)).length 0 :=
    List.eq_replicate_iff.mpr ⟨rfl, hz⟩
  rw [← this, List.take_append_drop]

theorem trimPos_pos (bs : List Nat) : 0 < trimPos bs := by
  unfold trimPos; split <;> omega

theorem ofLeBytes_trim (bs : List Nat) : ofLeBytes (bs.take (trimPos bs)) = ofLeBytes bs := by
  obtain ⟨k, hk⟩ := trim_spec bs
  conv => rhs; rw [hk]
  rw [ofLeBytes_append_zeros]

theorem Precision.multiplier_eq (p : Precision) : p.multiplier = 10 ^ p.val := by
  revert p; decide

theorem Precision.multiplier_pos (p : Precision) : 0 < p.multiplier := by
  rw [multiplier_eq]; exact Nat.pow_pos (by omega)

namespace CoinAmount

theorem filter_digits {s : Text} (h : ∀ c ∈ s, c ≠ ' ' ∧ c ≠ '_') :
    s.filter (fun c => c != ' ' && c != '_') = s := by
  rw [List.filter_eq_self]; intro c hc; simp [h c hc]

theorem filter_joinWith {fill : Char} (hf : fill = ' ' ∨ fill = '_') (ps : List Text)
    (h : ∀ p ∈ ps, ∀ c ∈ p, c ≠ ' ' ∧ c ≠ '_') :
    (joinWith fill ps).filter (fun c => c != ' ' && c != '_') = ps.flatten := by
  induction ps with
  | nil => rfl
  | cons p ps ih =>
    cases ps with
    | nil => simpa [joinWith] using filter_digits (h p (by simp))
    | cons q qs =>
      simp only [joinWith, List.filter_append, List.filter_cons]
      rw [ih (fun x hx => h x (by simp [hx])), filter_digits (h p (by simp))]
      rcases hf with rfl | rfl <;> simp

theorem chunks3_flatten (s : Text) : (chunks3 s).flatten = s := by
  induction s using chunks3.induct with
  | case1 a b c r ih => simp [chunks3, ih]
  | case2 => rfl
  | case3 t h1 h2 =>
    match t, h1, h2 with
    | [], _, h => exact absurd rfl h
    | [_], _, _ => rfl
    | [_, _], _, _ => rfl
    | a :: b :: c :: r, h, _ => exact absurd rfl (h a b c r)

theorem flatten_map_reverse_reverse (l : List Text) :
    ((l.map List.reverse).reverse).flatten = l.flatten.reverse := by
  rw [List.reverse_flatten]

theorem filter_toChunks {fill : Char} (hf : fill = ' ' ∨ fill = '_') (s : Text)
    (h : ∀ c ∈ s, c ≠ ' ' ∧ c ≠ '_') :
    (toChunks fill s).filter (fun c => c != ' ' && c != '_') = s := by
  unfold toChunks
  rw [filter_joinWith hf]
  · rw [flatten_map_reverse_reverse, chunks3_flatten, List.reverse_reverse]
  · intro p hp c hc
    apply h
    have : c ∈ ((((chunks3 s.reverse).map List.reverse).reverse)).flatten := List.mem_flatten.mpr ⟨p, hp, hc⟩
    rw [flatten_map_reverse_reverse, chunks3_flatten, List.reverse_reverse] at this
    exact this

theorem digit_facts {c : Char} (h : ∃ d, d < 10 ∧ c = digitChar d) :
    c ≠ ' ' ∧ c ≠ '_' ∧ c ≠ '.' ∧ c ≠ '~' ∧ c ≠ '+' := by
  obtain ⟨d, hd, rfl⟩ := h
  have : ∀ d : Fin 10, digitChar d ≠ ' ' ∧ digitChar d ≠ '_' ∧ digitChar d ≠ '.' ∧ digitChar d ≠ '~' ∧
    digitChar d ≠ '+' := by decide
  exact this ⟨d, hd⟩

theorem padFract_spec {fract d : Nat} (hd : 0 < d) (h : fract < 10 ^ d) :
    ∃ s, padFract fract d = some s ∧ s.length = d ∧ parseDigits 0 s = some fract ∧
      (∀ c ∈ s, ∃ k, k < 10 ∧ c = digitChar k) ∧ s = List.replicate (d - (showNat fract).length) '0' ++ showNat fract := by
  have hl := (showNat_length_le hd).mpr h
  unfold padFract
  have hz : ∀ k v, parseDigits 0 (List.replicate k '0' ++ v) = parseDigits 0 v := by
    intro k v
    induction k with
    | zero => rfl
    | succ k ih =>
      simp only [List.replicate_succ, List.cons_append, parseDigits]
      have : charDigit '0' = some 0 := by decide
      rw [this]; exact ih
  by_cases hlt : (showNat fract).length < d
  · refine ⟨_, by simp only [hlt, if_true], ?_, ?_, ?_, rfl⟩
    · simp; omega
    · rw [hz, parseDigits_showNat]
    · intro c hc
      rcases List.mem_append.mp hc with hc | hc
      · have := List.eq_of_mem_replicate hc
        exact ⟨0, by omega, by rw [this]; rfl⟩
      · exact showNat_digits _ c hc
  · have he : (showNat fract).length = d := by omega
    refine ⟨_, by rw [if_neg hlt, if_pos he], he, parseDigits_showNat _, showNat_digits _, ?_⟩
    simp [he]

theorem padFract_none {fract d : Nat} (hd : 0 < d) (h : 10 ^ d ≤ fract) : padFract fract d = none := by
  have hl : ¬ (showNat fract).length ≤ d := fun hh => by
    have := (showNat_length_le hd).mp hh; omega
  unfold padFract
  rw [if_neg (by omega), if_neg (by omega)]

end CoinAmount
end Rgb
