import Verif.Proofs.Writer.Spec
/-!
# Decimal representation of integers
-/

namespace Verif.Writer
open Json Utf8
open WSpec hiding Frame

theorem decValue_snoc (ds : Text) (c : Char) : decValue (ds ++ [c]) = decValue ds * 10 + (c.toNat - 0x30) := by
  unfold decValue
  rw [List.foldl_append]
  rfl

theorem digit_toNat {n : Nat} (h : n < 10) : (Char.ofNat (0x30 + n)).toNat = 0x30 + n :=
  ofNat_val (isValidChar_of (by omega) (by omega))

theorem natToString_small {n : Nat} (h : n < 10) : natToString n = [Char.ofNat (0x30 + n)] := by
  rw [natToString, if_pos h]

theorem natToString_big {n : Nat} (h : ¬ n < 10) : natToString n = natToString (n / 10) ++ [Char.ofNat (0x30 + n % 10)] := by
  rw [natToString, if_neg h]

theorem digit_ne_zero {n : Nat} (h : n < 10) (h0 : n ≠ 0) : Char.ofNat (0x30 + n) ≠ '0' := by
  intro e
  have := congrArg Char.toNat e
  rw [digit_toNat h] at this
  have h2 : ('0' : Char).toNat = 0x30 := rfl
  omega

theorem natToString_head (n : Nat) (h : 0 < n) : ∃ c cs, natToString n = c :: cs ∧ c ≠ '0' := by
  induction n using Nat.strongRecOn with
  | _ n ih =>
    by_cases hn : n < 10
    · exact ⟨_, _, natToString_small hn, digit_ne_zero hn (by omega)⟩
    · obtain ⟨c, cs, h1, h2⟩ := ih (n / 10) (by omega) (by omega)
      exact ⟨c, cs ++ [Char.ofNat (0x30 + n % 10)], by rw [natToString_big hn, h1]; rfl, h2⟩

theorem natToString_digits (n : Nat) : (∀ c ∈ natToString n, 0x30 ≤ c.toNat ∧ c.toNat ≤ 0x39) ∧ decValue (natToString n) = n := by
  induction n using Nat.strongRecOn with
  | _ n ih =>
    by_cases hn : n < 10
    · rw [natToString_small hn]
      refine ⟨?_, ?_⟩
      · intro c hc
        rw [List.mem_singleton.1 hc, digit_toNat hn]; omega
      · show 0 * 10 + ((Char.ofNat (0x30 + n)).toNat - 0x30) = n
        rw [digit_toNat hn]; omega
    · obtain ⟨h1, h2⟩ := ih (n / 10) (by omega)
      have hm : n % 10 < 10 := Nat.mod_lt _ (by decide)
      rw [natToString_big hn]
      refine ⟨?_, ?_⟩
      · intro c hc
        rcases List.mem_append.1 hc with hc | hc
        · exact h1 c hc
        · rw [List.mem_singleton.1 hc, digit_toNat hm]; omega
      · rw [decValue_snoc, h2, digit_toNat hm]; omega

theorem natToString_isDecimal (n : Nat) : IsDecimal (natToString n) n := by
  obtain ⟨h1, h2⟩ := natToString_digits n
  refine ⟨h1, h2, ?_⟩
  by_cases hn : n = 0
  · subst hn; exact .inl (by rw [natToString_small (by omega)])
  · exact .inr (natToString_head n (by omega))

theorem intToString_isInteger (i : Int) : IsInteger (intToString i) i := by
  unfold intToString
  split
  · rename_i h; exact .inr ⟨h, _, rfl, natToString_isDecimal _⟩
  · rename_i h; exact .inl ⟨by omega, natToString_isDecimal _⟩

theorem enc_digit {c : Char} (h : c.toNat < 0x80) : String.utf8EncodeChar c = [UInt8.ofNat c.toNat] := by
  have := enc_of_shape1 (b0 := UInt8.ofNat c.toNat) (by rw [toNat_ofNat_lt (by omega)]; exact h)
  rwa [toNat_ofNat_lt (by omega), ofNat_self] at this

theorem enc_digits {ds : Text} (h : ∀ c ∈ ds, 0x30 ≤ c.toNat ∧ c.toNat ≤ 0x39) : (∀ b ∈ enc ds, isDigit b = true) := by
  induction ds with
  | nil => exact nofun
  | cons c ds ih =>
    have hc := h c (List.mem_cons_self ..)
    rw [Verif.enc_cons, enc_digit (by omega)]
    intro b hb
    rcases List.mem_cons.1 hb with rfl | hb
    · have : (UInt8.ofNat c.toNat).toNat = c.toNat := toNat_ofNat_lt (by omega)
      unfold isDigit
      rw [Bool.and_eq_true, decide_eq_true_eq, decide_eq_true_eq, UInt8.le_iff_toNat_le, UInt8.le_iff_toNat_le, this]
      exact hc
    · exact ih (fun c hc => h c (List.mem_cons_of_mem _ hc)) b hb

theorem isDecimal_valid {ds : Text} {n : Nat} (h : IsDecimal ds n) : NumParts.ValidInt (enc ds) := by
  obtain ⟨h1, -, h3⟩ := h
  have hd := enc_digits h1
  rcases h3 with rfl | ⟨c, cs, rfl, h3⟩
  · exact .inl rfl
  · right
    have hc := h1 c (List.mem_cons_self ..)
    rw [Verif.enc_cons, enc_digit (by omega)] at hd ⊢
    refine ⟨_, _, rfl, hd _ (List.mem_cons_self ..), ?_, fun b hb => hd b (List.mem_cons_of_mem _ hb)⟩
    intro e
    have := congrArg UInt8.toNat e
    rw [toNat_ofNat_lt (by omega)] at this
    exact h3 (char_ext this)

theorem isInteger_number {t : Text} {i : Int} (h : IsInteger t i) : IsNumber (enc t) := by
  rcases h with ⟨_, h⟩ | ⟨_, ds, rfl, h⟩
  · exact ⟨⟨false, enc t, none, none⟩, ⟨isDecimal_valid h, nofun, nofun⟩, by simp [NumParts.text, NumParts.signText, NumParts.fracText, NumParts.expText]⟩
  · refine ⟨⟨true, enc ds, none, none⟩, ⟨isDecimal_valid h, nofun, nofun⟩, ?_⟩
    rw [Verif.enc_cons]
    simp [NumParts.text, NumParts.signText, NumParts.fracText, NumParts.expText]
    rfl

/-- the decimal representation is unique -/
theorem isDecimal_unique {a b : Text} {n : Nat} (ha : IsDecimal a n) (hb : IsDecimal b n) : a = b := by
  have key : ∀ (n : Nat) (ds : Text), IsDecimal ds n → ds = natToString n := by
    intro n
    induction n using Nat.strongRecOn with
    | _ n ih =>
      intro ds hd
      obtain ⟨h1, h2, h3⟩ := hd
      rcases List.eq_nil_or_concat ds with rfl | ⟨ds', c, rfl⟩
      · rcases h3 with h3 | ⟨c, cs, h3, _⟩ <;> cases h3
      · rw [List.concat_eq_append] at *
        have hc := h1 c (by simp)
        rw [decValue_snoc] at h2
        have hcn : c = Char.ofNat (0x30 + (c.toNat - 0x30)) := by
          have : 0x30 + (c.toNat - 0x30) = c.toNat := by omega
          rw [this, ofNat_self]
        cases ds' with
        | nil =>
          have hz : decValue [] = 0 := rfl
          rw [hz] at h2
          rw [natToString_small (by omega), hcn]
          have : c.toNat - 0x30 = n := by omega
          rw [← this]
          simp [digit_toNat (show c.toNat - 0x30 < 10 by omega)]
        | cons d ds' =>
          have hd0 : d ≠ '0' := by
            rcases h3 with h3 | ⟨c', cs', h3, h4⟩
            · simp at h3
            · injection h3 with h3 _; rw [h3]; exact h4
          have hdig := h1 d (by simp)
          have hpos : 0 < decValue (d :: ds') := by
            have gen : ∀ (cs : Text) (acc : Nat), 0 < acc → 0 < cs.foldl (fun n c => n * 10 + (c.toNat - 0x30)) acc := by
              intro cs
              induction cs with
              | nil => exact fun _ h => h
              | cons c cs ih => exact fun acc h => ih _ (by show 0 < acc * 10 + (c.toNat - 0x30); omega)
            refine gen ds' _ ?_
            have : d.toNat ≠ 0x30 := fun e => hd0 (char_ext e)
            show 0 < 0 * 10 + (d.toNat - 0x30)
            omega
          have hbig : ¬ n < 10 := by omega
          have hsub := ih (n / 10) (by omega) (d :: ds') ⟨fun c hc => h1 c (by simp at hc ⊢; rcases hc with h | h <;> simp [h]), by omega, .inr ⟨d, ds', rfl, hd0⟩⟩
          rw [natToString_big hbig, ← hsub, hcn]
          have : c.toNat - 0x30 = n % 10 := by omega
          rw [this]
  rw [key n a ha, key n b hb]

theorem isInteger_unique {a b : Text} {i : Int} (ha : IsInteger a i) (hb : IsInteger b i) : a = b := by
  rcases ha with ⟨h1, h2⟩ | ⟨h1, d, rfl, h2⟩ <;> rcases hb with ⟨h3, h4⟩ | ⟨h3, d', rfl, h4⟩
  · exact isDecimal_unique h2 h4
  · omega
  · omega
  · rw [isDecimal_unique h2 h4]

end Verif.Writer
