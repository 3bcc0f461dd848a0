import Verif.Spec.DeAny
import Verif.Proofs.De.Value
import Verif.Proofs.Ser.Value
import Verif.Proofs.Writer.Spec
/-! # The numbers given to visitors -/

namespace Verif.DeSpec
open Json Cursor De Writer
open WSpec (IsDecimal decValue)
open Ser (natToString_eq)

theorem toDigits_chars (n : Nat) : ∀ c ∈ Nat.toDigits 10 n, 0x30 ≤ c.toNat ∧ c.toNat ≤ 0x39 := by
  rw [← natToString_eq]
  exact (natToString_digits n).1

theorem foldl_dec (ds : Text) : ∀ n : Nat, ds.foldl (fun n c => 10 * n + (c.toNat - '0'.toNat)) n = ds.foldl (fun n c => n * 10 + (c.toNat - 0x30)) n := by
  induction ds with
  | nil => intro n; rfl
  | cons c cs ih =>
    intro n
    rw [List.foldl_cons, List.foldl_cons, ih, Nat.mul_comm]
    rfl

theorem le_char {c : Char} : ('0' ≤ c ∧ c ≤ '9') ↔ 0x30 ≤ c.toNat ∧ c.toNat ≤ 0x39 := Iff.rfl

theorem toDigits_ne_nil (n : Nat) : Nat.toDigits 10 n ≠ [] := by
  rw [← natToString_eq]
  by_cases h : n < 10
  · rw [natToString_small h]; nofun
  · rw [natToString_big h]; simp

theorem natValue_toDigits (n : Nat) : natValue (Nat.toDigits 10 n) = some n := by
  unfold natValue
  rw [if_pos ⟨toDigits_ne_nil n, fun c hc => le_char.2 (toDigits_chars n c hc)⟩, foldl_dec]
  have := (natToString_digits n).2
  rw [natToString_eq] at this
  exact congrArg some this

theorem toDigits_head (n : Nat) : ∃ c cs, Nat.toDigits 10 n = c :: cs ∧ 0x30 ≤ c.toNat := by
  match h : Nat.toDigits 10 n with
  | [] => exact absurd h (toDigits_ne_nil n)
  | c :: cs => exact ⟨c, cs, rfl, (toDigits_chars n c (by rw [h]; exact List.mem_cons_self ..)).1⟩

theorem intValue_toDigits (n : Nat) : intValue (Nat.toDigits 10 n) = some (n : Int) ∧ (Nat.toDigits 10 n).head? ≠ some '-' := by
  obtain ⟨c, cs, h, hc⟩ := toDigits_head n
  have h1 : c ≠ '-' := by rintro rfl; revert hc; decide
  have h2 : c ≠ '+' := by rintro rfl; revert hc; decide
  have hv := natValue_toDigits n
  rw [h] at hv ⊢
  refine ⟨?_, by simpa using h1⟩
  unfold intValue
  split
  · next he => injection he with he; exact absurd he h1
  · next he => injection he with he; exact absurd he h2
  · rw [hv]; rfl

theorem isFloat_digits {ds : Text} (h : ∀ c ∈ ds, 0x30 ≤ c.toNat ∧ c.toNat ≤ 0x39) : isFloat ds = false := by
  have : ∀ x : Char, (x.toNat < 0x30 ∨ 0x39 < x.toNat) → ds.contains x = false := by
    intro x hx
    rw [List.contains_eq_mem]
    refine decide_eq_false fun hm => ?_
    have := h x hm
    omega
  unfold isFloat
  rw [this '.' (by decide), this 'e' (by decide), this 'E' (by decide)]
  rfl

theorem isFloat_minus (ds : Text) : isFloat ('-' :: ds) = isFloat ds := by
  unfold isFloat
  simp only [List.contains_cons]
  rfl

theorem isFloat_iff (t : Text) : isFloat t = true ↔ ('.' ∈ t ∨ 'e' ∈ t ∨ 'E' ∈ t) := by
  unfold isFloat
  simp only [List.contains_eq_mem, Bool.or_eq_true, decide_eq_true_eq, or_assoc]

/-- `Visited` is what the specification of `deserialize_any` says -/
theorem anyNumber_visited {t : Text} {r : Except Unit Prim} (h : Visited t r) : anyNumber t = match r with
    | .ok p => .ok p
    | .error _ => .err .invalidNumber := by
  have nat : ∀ n : Nat, anyNumber (Nat.toDigits 10 n) = if fits .u64 n then .ok (.int .u64 n) else if fits .u128 n then .ok (.int .u128 n) else .err .invalidNumber := by
    intro n
    unfold anyNumber
    rw [if_neg (by rw [isFloat_digits (toDigits_chars n)]; nofun), (intValue_toDigits n).1]
    dsimp only
    rw [if_neg (intValue_toDigits n).2]
  have neg : ∀ n : Nat, anyNumber ('-' :: Nat.toDigits 10 n) = if fits .i64 (-n) then .ok (.int .i64 (-n)) else if fits .i128 (-n) then .ok (.int .i128 (-n)) else .err .invalidNumber := by
    intro n
    unfold anyNumber
    rw [if_neg (by rw [isFloat_minus, isFloat_digits (toDigits_chars n)]; nofun), intValue, natValue_toDigits]
    rfl
  have fit : ∀ (ty : IntTy) (i : Int), fits ty i = true ↔ (ty.min ≤ i ∧ i ≤ ty.max) := by
    intro ty i
    unfold fits
    rw [Bool.and_eq_true, decide_eq_true_eq, decide_eq_true_eq]
  have e1 : IntTy.u64.min = 0 := rfl
  have e2 : IntTy.u64.max = 2 ^ 64 - 1 := rfl
  have e3 : IntTy.u128.min = 0 := rfl
  have e4 : IntTy.u128.max = 2 ^ 128 - 1 := rfl
  have e5 : IntTy.i64.min = -2 ^ 63 := rfl
  have e6 : IntTy.i64.max = 2 ^ 63 - 1 := rfl
  have e7 : IntTy.i128.min = -2 ^ 127 := rfl
  have e8 : IntTy.i128.max = 2 ^ 127 - 1 := rfl
  cases h with
  | float t h => unfold anyNumber; rw [if_pos ((isFloat_iff t).2 h)]
  | u64 n h => rw [nat, if_pos ((fit _ _).2 (by omega))]
  | u128 n h1 h2 => rw [nat, if_neg (fun h => by have := (fit _ _).1 h; omega), if_pos ((fit _ _).2 (by omega))]
  | tooLarge n h => rw [nat, if_neg (fun h => by have := (fit _ _).1 h; omega), if_neg (fun h => by have := (fit _ _).1 h; omega)]
  | i64 n h => rw [neg, if_pos ((fit _ _).2 (by omega))]
  | i128 n h1 h2 => rw [neg, if_neg (fun h => by have := (fit _ _).1 h; omega), if_pos ((fit _ _).2 (by omega))]
  | tooSmall n h => rw [neg, if_neg (fun h => by have := (fit _ _).1 h; omega), if_neg (fun h => by have := (fit _ _).1 h; omega)]

/-- digits without leading zeros -/
theorem toDigits_of_validInt {ds : Text} (h : NumParts.ValidInt (enc ds)) (hd : ∀ c ∈ ds, 0x30 ≤ c.toNat ∧ c.toNat ≤ 0x39) : ∃ n, ds = Nat.toDigits 10 n := by
  refine ⟨decValue ds, ?_⟩
  rw [← natToString_eq]
  refine isDecimal_unique ⟨hd, rfl, ?_⟩ (natToString_isDecimal _)
  match ds, h with
  | [], h => rcases h with h | ⟨_, _, h, _⟩ <;> exact absurd h (by nofun)
  | c :: cs, h =>
    by_cases hc : c = '0'
    · left
      subst hc
      rcases h with h | ⟨d, ds, h, h1, h2, _⟩
      · cases cs with
        | nil => rfl
        | cons c' cs =>
          exfalso
          have hc' := enc_digit (c := c') (by have := (hd c' (List.mem_cons_of_mem _ (List.mem_cons_self ..))).2; omega)
          have e0 : String.utf8EncodeChar '0' = [0x30] := by decide +kernel
          simp [enc, e0, hc'] at h
      · have e0 : String.utf8EncodeChar '0' = [0x30] := by decide +kernel
        simp [enc, e0] at h
        exact absurd h.1.symm h2
    · exact .inr ⟨c, cs, rfl, hc⟩

theorem digit_byte {b : UInt8} (h : isDigit b = true) : 0x30 ≤ (Char.ofNat b.toNat).toNat ∧ (Char.ofNat b.toNat).toNat ≤ 0x39 := by
  have : ∀ b : Fin 256, isDigit (UInt8.ofNat b.val) = true → 0x30 ≤ (Char.ofNat (UInt8.ofNat b.val).toNat).toNat ∧ (Char.ofNat (UInt8.ofNat b.val).toNat).toNat ≤ 0x39 := by decide +kernel
  have hb := this ⟨b.toNat, b.toNat_lt⟩
  simp only [UInt8.ofNat_toNat] at hb
  exact hb h

theorem validInt_digits {bs : Bytes} (h : NumParts.ValidInt bs) : ∀ b ∈ bs, isDigit b = true := by
  rcases h with rfl | ⟨d, ds, rfl, h1, _, h2⟩
  · intro b hb
    rw [List.mem_singleton] at hb
    subst hb
    decide
  · intro b hb
    rcases List.mem_cons.1 hb with rfl | hb
    · exact h1
    · exact h2 b hb

theorem digits_ascii {bs : Bytes} (h : ∀ b ∈ bs, isDigit b = true) : enc (asciiText bs) = bs := by
  refine Abs.asciiText_enc fun b hb => ?_
  have := h b hb
  revert this
  have all : ∀ b : Fin 256, isDigit (UInt8.ofNat b.val) = true → (UInt8.ofNat b.val).toNat < 0x80 ∧ UInt8.ofNat b.val ≠ 0x0A ∧ UInt8.ofNat b.val ≠ 0x0D := by decide +kernel
  have hb := all ⟨b.toNat, b.toNat_lt⟩
  simp only [UInt8.ofNat_toNat] at hb
  exact hb

/-- every number is visited in one of the ways -/
theorem visited_total {t : Text} (h : IsNumber (enc t)) : ∃ r, Visited t r := by
  have ht := WSpec.number_text h
  obtain ⟨p, hp, he⟩ := h
  rw [← he] at ht
  have hmem : ∀ {b : UInt8}, b ∈ p.text → Char.ofNat b.toNat ∈ t := by
    intro b hb
    rw [← ht]
    exact List.mem_map_of_mem hb
  match hf : p.frac, hx : p.exp with
  | some ds, _ => exact ⟨_, .float t (.inl (hmem (b := 0x2E) (by simp [NumParts.text, NumParts.fracText, hf])))⟩
  | none, some (e, sg, ds) =>
    rcases (hp.exp _ _ _ hx).1 with rfl | rfl
    · exact ⟨_, .float t (.inr (.inl (hmem (b := 0x65) (by simp [NumParts.text, NumParts.expText, hx]))))⟩
    · exact ⟨_, .float t (.inr (.inr (hmem (b := 0x45) (by simp [NumParts.text, NumParts.expText, hx]))))⟩
  | none, none =>
    have hdig := validInt_digits hp.int
    obtain ⟨n, hn⟩ := toDigits_of_validInt (ds := asciiText p.int) (by rw [digits_ascii hdig]; exact hp.int) (by
      intro c hc
      obtain ⟨b, hb, rfl⟩ := List.mem_map.1 hc
      exact digit_byte (hdig b hb))
    have htext : p.text = NumParts.signText p.minus ++ p.int := by simp [NumParts.text, NumParts.fracText, NumParts.expText, hf, hx]
    rw [htext] at ht
    cases hm : p.minus with
    | false =>
      rw [hm] at ht
      replace ht : asciiText p.int = t := ht
      rw [hn] at ht
      subst ht
      by_cases h1 : n < 2 ^ 64
      · exact ⟨_, .u64 n h1⟩
      by_cases h2 : n < 2 ^ 128
      · exact ⟨_, .u128 n (Nat.le_of_not_lt h1) h2⟩
      · exact ⟨_, .tooLarge n (Nat.le_of_not_lt h2)⟩
    | true =>
      rw [hm] at ht
      replace ht : '-' :: asciiText p.int = t := ht
      rw [hn] at ht
      subst ht
      by_cases h1 : n ≤ 2 ^ 63
      · exact ⟨_, .i64 n h1⟩
      by_cases h2 : n ≤ 2 ^ 127
      · exact ⟨_, .i128 n (Nat.lt_of_not_le h1) h2⟩
      · exact ⟨_, .tooSmall n (Nat.lt_of_not_le h2)⟩

end Verif.DeSpec
