import Verif.Model.JsonNumber
import Verif.Spec.Number
/-! Correctness of the number scanner for every byte provider -/

namespace Verif.JsonNumber

/-! ### Scanner on lists -/

/-- no number character follows -/
def NumStop (l : Bytes) : Prop := ∀ b, l.head? = some b → isNumberChar b = false

def finishL (c : Nat) : Bytes → Option Nat × Bytes
  | [] => (some c, [])
  | b :: t => if isNumberChar b then (none, b :: t) else (some c, b :: t)

def expDigitsL : Bytes → Option Nat × Bytes
  | [] => (none, [])
  | d :: t => if isDigit d then
      finishL (((d :: t.takeWhile isDigit).dropWhile (· == 0x30)).length) (t.dropWhile isDigit)
    else (none, d :: t)

def expL : Bytes → Option Nat × Bytes
  | [] => (some 0, [])
  | b :: t => if b == 0x65 || b == 0x45 then
      match t with
      | [] => (none, [])
      | c :: t' => if c == 0x2D || c == 0x2B then expDigitsL t' else expDigitsL (c :: t')
    else finishL 0 (b :: t)

def fracL : Bytes → Option Nat × Bytes
  | [] => (some 0, [])
  | b :: t => if b == 0x2E then
      match t with
      | [] => (none, [])
      | d :: t' => if isDigit d then expL (t'.dropWhile isDigit) else (none, d :: t')
    else expL (b :: t)

def intL : Bytes → Option Nat × Bytes
  | [] => (none, [])
  | b :: t => if isDigit19 b then fracL (t.dropWhile isDigit)
    else if b == 0x30 then fracL t
    else (none, b :: t)

def numL : Bytes → Option Nat × Bytes
  | [] => (none, [])
  | b :: t => if b == 0x2D then intL t else intL (b :: t)

/-! ### The model equals the scanner on lists -/

variable {ε σ : Type}

/-- `next` behaves like a cursor; `V s l`: in state `s` the input, starting with the current byte, is `l`. -/
def IsProvider (next : M ε σ (Option UInt8)) (V : σ → Bytes → Prop) : Prop :=
  ∀ s b t, V s (b :: t) → ∃ s', next.run s = .ok t.head? s' ∧ V s' t

section
variable {next : M ε σ (Option UInt8)} {V : σ → Bytes → Prop} {oof : ε} (hp : IsProvider next V)
include hp

omit hp in
theorem isAsciiDigit_eq (b : UInt8) : isAsciiDigit b = isDigit b := by
  rw [isAsciiDigit, isDigit]

theorem consumeDigits_spec (fuel : Nat) (s : σ) (b : UInt8) (t : Bytes) (hV : V s (b :: t)) (hf : t.length < fuel) :
    ∃ s', (consumeDigits next oof fuel).run s = .ok (t.dropWhile isDigit).head? s' ∧ V s' (t.dropWhile isDigit) := by
  induction fuel generalizing s b t with
  | zero => omega
  | succ fuel ih =>
    obtain ⟨s1, h1, hV1⟩ := hp s b t hV
    rw [consumeDigits, M.bind_ok h1]
    cases t with
    | nil => exact ⟨s1, rfl, hV1⟩
    | cons c t =>
      simp only [List.head?_cons]
      by_cases hc : isDigit c = true
      · simp only [isAsciiDigit_eq, if_pos hc, List.dropWhile_cons_of_pos hc]
        exact ih s1 c t hV1 (by simp at hf; omega)
      · simp only [isAsciiDigit_eq, if_neg hc, List.dropWhile_cons_of_neg hc]
        exact ⟨s1, rfl, hV1⟩

theorem consumeExpDigits_spec (fuel : Nat) (s : σ) (b : UInt8) (t : Bytes) (count : Nat)
    (hV : V s (b :: t)) (hf : t.length < fuel) :
    ∃ s', (consumeExpDigits next oof fuel count).run s = .ok
        (if count > 0 then count + (t.takeWhile isDigit).length
          else ((t.takeWhile isDigit).dropWhile (· == 0x30)).length, (t.dropWhile isDigit).head?) s'
      ∧ V s' (t.dropWhile isDigit) := by
  induction fuel generalizing s b t count with
  | zero => omega
  | succ fuel ih =>
    obtain ⟨s1, h1, hV1⟩ := hp s b t hV
    rw [consumeExpDigits, M.bind_ok h1]
    cases t with
    | nil => exact ⟨s1, by simp, hV1⟩
    | cons c t =>
      simp only [List.head?_cons]
      by_cases hc : isDigit c = true
      · simp only [isAsciiDigit_eq, if_pos hc, List.dropWhile_cons_of_pos hc, List.takeWhile_cons_of_pos hc]
        obtain ⟨s2, h2, hV2⟩ := ih s1 c t (if c != 0x30 || count > 0 then count + 1 else count) hV1
          (by simp at hf; omega)
        refine ⟨s2, ?_, hV2⟩
        rw [h2]
        congr 2
        by_cases hcount : count > 0
        · simp [hcount]; omega
        · have h0 : count = 0 := by omega
          by_cases hz : c = 0x30
          · subst hz; simp [h0]
          · simp [h0, hz]; omega
      · simp only [isAsciiDigit_eq, if_neg hc, List.dropWhile_cons_of_neg hc, List.takeWhile_cons_of_neg hc]
        exact ⟨s1, by simp, hV1⟩

omit hp in
theorem finish_spec (c : Nat) (s : σ) (l : Bytes) (hV : V s l) :
    ∃ s', (match l.head? with | none => (pure (some c) : M ε σ (Option Nat)) | some b => finish c b).run s
      = .ok (finishL c l).1 s' ∧ V s' (finishL c l).2 := by
  cases l with
  | nil => exact ⟨s, rfl, hV⟩
  | cons b t =>
    simp only [List.head?_cons, finish, finishL]
    by_cases h : isNumberChar b = true
    · have h' := h
      simp only [isNumberChar, ← isAsciiDigit_eq] at h'
      rw [if_pos h', if_pos h]
      exact ⟨s, rfl, hV⟩
    · have h' := h
      simp only [isNumberChar, ← isAsciiDigit_eq] at h'
      rw [if_neg h', if_neg h]
      exact ⟨s, rfl, hV⟩

omit hp in
theorem isDigit_split (b : UInt8) : (isDigit19 b || b == 0x30) = isDigit b := by
  simp only [isDigit19, isDigit]
  by_cases h : b = 0x30
  · subst h; decide
  · have : b.toNat ≠ 0x30 := fun e => h (UInt8.toNat_inj.mp e)
    rw [Bool.eq_iff_iff]
    simp [h, UInt8.le_iff_toNat_le]
    omega

omit hp in
theorem not_isDigit19_zero {b : UInt8} (h : isDigit19 b = true) : (b == 0x30) = false := by
  simp only [isDigit19, Bool.and_eq_true, decide_eq_true_eq] at h
  by_cases hb : b = 0x30
  · subst hb; exact absurd h.1 (by decide)
  · simp [hb]

theorem exponentDigits_spec (fuel : Nat) (s : σ) (b : UInt8) (t : Bytes) (hV : V s (b :: t)) (hf : t.length < fuel) :
    ∃ s', (exponentDigits next oof fuel b).run s = .ok (expDigitsL (b :: t)).1 s' ∧ V s' (expDigitsL (b :: t)).2 := by
  unfold exponentDigits expDigitsL
  simp only [isDigit_split]
  by_cases hb : isDigit b = true
  · rw [if_pos hb, if_pos hb]
    obtain ⟨s1, h1, hV1⟩ := consumeExpDigits_spec hp (oof := oof) fuel s b t (if isDigit19 b then 1 else 0) hV hf
    rw [M.bind_ok h1]
    have hcount : (if (if isDigit19 b = true then 1 else 0) > 0
        then (if isDigit19 b = true then 1 else 0) + (List.takeWhile isDigit t).length
        else ((List.takeWhile isDigit t).dropWhile fun x => x == 0x30).length) =
        ((b :: t.takeWhile isDigit).dropWhile (· == 0x30)).length := by
      by_cases h19 : isDigit19 b = true
      · simp [h19, not_isDigit19_zero h19]; omega
      · have hz : b = 0x30 := by
          have := isDigit_split b
          rw [hb] at this
          simpa [h19] using this
        subst hz
        simp [h19]
    rw [hcount]
    obtain ⟨s2, h2, hV2⟩ := finish_spec (ε := ε) ((b :: t.takeWhile isDigit).dropWhile (· == 0x30)).length s1 _ hV1
    refine ⟨s2, ?_, hV2⟩
    rw [← h2]
    cases (t.dropWhile isDigit).head? <;> rfl
  · rw [if_neg hb, if_neg hb]
    exact ⟨s, rfl, hV⟩

theorem exponentPart_spec (fuel : Nat) (s : σ) (b : UInt8) (t : Bytes) (hV : V s (b :: t)) (hf : t.length < fuel) :
    ∃ s', (exponentPart next oof fuel b).run s = .ok (expL (b :: t)).1 s' ∧ V s' (expL (b :: t)).2 := by
  unfold exponentPart expL
  dsimp only
  by_cases hb : (b == 0x65 || b == 0x45) = true
  · rw [if_pos hb, if_pos hb]
    obtain ⟨s1, h1, hV1⟩ := hp s b t hV
    rw [M.bind_ok h1]
    cases t with
    | nil => exact ⟨s1, rfl, hV1⟩
    | cons c t =>
      simp only [List.head?_cons]
      simp only [List.length_cons] at hf
      by_cases hc : (c == 0x2D || c == 0x2B) = true
      · rw [if_pos hc, if_pos hc]
        obtain ⟨s2, h2, hV2⟩ := hp s1 c t hV1
        rw [M.bind_ok h2]
        cases t with
        | nil => exact ⟨s2, rfl, hV2⟩
        | cons d t => exact exponentDigits_spec hp fuel s2 d t hV2 (by simp at hf; omega)
      · rw [if_neg hc, if_neg hc]
        exact exponentDigits_spec hp fuel s1 c t hV1 (by omega)
  · rw [if_neg hb, if_neg hb]
    exact finish_spec 0 s (b :: t) hV

omit hp in
theorem dropWhile_length_le (t : Bytes) : (t.dropWhile isDigit).length ≤ t.length :=
  (List.dropWhile_suffix isDigit).sublist.length_le

theorem fractionPart_spec (fuel : Nat) (s : σ) (b : UInt8) (t : Bytes) (hV : V s (b :: t)) (hf : t.length < fuel) :
    ∃ s', (fractionPart next oof fuel b).run s = .ok (fracL (b :: t)).1 s' ∧ V s' (fracL (b :: t)).2 := by
  unfold fractionPart fracL
  dsimp only
  by_cases hb : (b == 0x2E) = true
  · rw [if_pos hb, if_pos hb]
    obtain ⟨s1, h1, hV1⟩ := hp s b t hV
    rw [M.bind_ok h1]
    cases t with
    | nil => exact ⟨s1, rfl, hV1⟩
    | cons d t =>
      simp only [List.head?_cons, isAsciiDigit_eq]
      simp only [List.length_cons] at hf
      by_cases hd : isDigit d = true
      · rw [if_pos hd, if_pos hd]
        obtain ⟨s2, h2, hV2⟩ := consumeDigits_spec hp (oof := oof) fuel s1 d t hV1 (by omega)
        rw [M.bind_ok h2]
        have hl := dropWhile_length_le t
        cases hdw : t.dropWhile isDigit with
        | nil => rw [hdw] at hV2; exact ⟨s2, rfl, hV2⟩
        | cons e t' =>
          rw [hdw] at hV2 hl
          exact exponentPart_spec hp fuel s2 e t' hV2 (by simp at hl; omega)
      · rw [if_neg hd, if_neg hd]
        exact ⟨s1, rfl, hV1⟩
  · rw [if_neg hb, if_neg hb]
    exact exponentPart_spec hp fuel s b t hV hf

theorem integerPart_spec (fuel : Nat) (s : σ) (b : UInt8) (t : Bytes) (hV : V s (b :: t)) (hf : t.length < fuel) :
    ∃ s', (integerPart next oof fuel b).run s = .ok (intL (b :: t)).1 s' ∧ V s' (intL (b :: t)).2 := by
  unfold integerPart intL
  dsimp only
  by_cases hb : isDigit19 b = true
  · rw [if_pos hb, if_pos hb]
    obtain ⟨s2, h2, hV2⟩ := consumeDigits_spec hp (oof := oof) fuel s b t hV (by omega)
    rw [M.bind_ok h2]
    have hl := dropWhile_length_le t
    cases hdw : t.dropWhile isDigit with
    | nil => rw [hdw] at hV2; exact ⟨s2, rfl, hV2⟩
    | cons e t' =>
      rw [hdw] at hV2 hl
      exact fractionPart_spec hp fuel s2 e t' hV2 (by simp at hl; omega)
  · rw [if_neg hb, if_neg hb]
    by_cases hz : (b == 0x30) = true
    · rw [if_pos hz, if_pos hz]
      obtain ⟨s1, h1, hV1⟩ := hp s b t hV
      rw [M.bind_ok h1]
      cases t with
      | nil => exact ⟨s1, rfl, hV1⟩
      | cons d t =>
        exact fractionPart_spec hp fuel s1 d t hV1 (by simp at hf; omega)
    · rw [if_neg hz, if_neg hz]
      exact ⟨s, rfl, hV⟩

theorem consumeJsonNumber_spec (fuel : Nat) (s : σ) (b : UInt8) (t : Bytes) (hV : V s (b :: t)) (hf : t.length < fuel) :
    ∃ s', (consumeJsonNumber next oof fuel b).run s = .ok (numL (b :: t)).1 s' ∧ V s' (numL (b :: t)).2 := by
  unfold consumeJsonNumber numL
  dsimp only
  by_cases hb : (b == 0x2D) = true
  · rw [if_pos hb, if_pos hb]
    obtain ⟨s1, h1, hV1⟩ := hp s b t hV
    rw [M.bind_ok h1]
    cases t with
    | nil => exact ⟨s1, rfl, hV1⟩
    | cons d t => exact integerPart_spec hp fuel s1 d t hV1 (by simp at hf; omega)
  · rw [if_neg hb, if_neg hb]
    exact integerPart_spec hp fuel s b t hV hf

end

/-! ### The scanner on lists implements the grammar -/

theorem isNumberChar_of_isDigit {b : UInt8} (h : isDigit b = true) : isNumberChar b = true := by
  simp [isNumberChar, h]

theorem NumStop.notDigit {l : Bytes} (h : NumStop l) : ∀ b, l.head? = some b → isDigit b = false := by
  intro b hb
  cases hd : isDigit b with
  | false => rfl
  | true => have := h b hb; rw [isNumberChar_of_isDigit hd] at this; exact this

theorem dropWhile_digits {ds l : Bytes} (h : ∀ b ∈ ds, isDigit b = true)
    (hl : ∀ b, l.head? = some b → isDigit b = false) : (ds ++ l).dropWhile isDigit = l := by
  rw [List.dropWhile_append_of_pos h]
  cases l with
  | nil => rfl
  | cons b t => rw [List.dropWhile_cons_of_neg]; simp [hl b rfl]

theorem takeWhile_digits {ds l : Bytes} (h : ∀ b ∈ ds, isDigit b = true)
    (hl : ∀ b, l.head? = some b → isDigit b = false) : (ds ++ l).takeWhile isDigit = ds := by
  rw [List.takeWhile_append_of_pos h]
  cases l with
  | nil => simp
  | cons b t => rw [List.takeWhile_cons_of_neg] <;> simp [hl b rfl]

theorem finishL_stop {c : Nat} {l : Bytes} (h : NumStop l) : finishL c l = (some c, l) := by
  cases l with
  | nil => rfl
  | cons b t => simp [finishL, h b rfl]

theorem finishL_some {c k : Nat} {l l' : Bytes} (h : finishL c l = (some k, l')) : c = k ∧ l = l' ∧ NumStop l := by
  cases l with
  | nil => simp [finishL] at h; refine ⟨h.1, h.2.symm, ?_⟩; intro b hb; simp at hb
  | cons b t =>
    unfold finishL at h
    dsimp only at h
    split at h
    · simp at h
    · rename_i hb
      simp at h
      refine ⟨h.1, h.2, ?_⟩
      intro b' hb'; simp at hb'; subst hb'; simpa using hb

theorem expDigitsL_complete {ds l : Bytes} (h : Digits ds) (hl : NumStop l) :
    expDigitsL (ds ++ l) = (some (ds.dropWhile (· == 0x30)).length, l) := by
  obtain ⟨hne, hd⟩ := h
  cases ds with
  | nil => exact absurd rfl hne
  | cons d ds =>
    have hd' : ∀ b ∈ ds, isDigit b = true := fun b hb => hd b (by simp [hb])
    simp only [List.cons_append, expDigitsL, hd d (by simp), if_true]
    rw [dropWhile_digits hd' hl.notDigit, takeWhile_digits hd' hl.notDigit, finishL_stop hl]

theorem takeWhile_all (t : Bytes) : ∀ b ∈ t.takeWhile isDigit, isDigit b = true := by
  intro b hb
  have := List.all_takeWhile (p := isDigit) (l := t)
  rw [List.all_eq_true] at this
  exact this b hb

theorem expDigitsL_sound {l l' : Bytes} {k : Nat} (h : expDigitsL l = (some k, l')) :
    ∃ ds, Digits ds ∧ l = ds ++ l' ∧ k = (ds.dropWhile (· == 0x30)).length ∧ NumStop l' := by
  cases l with
  | nil => simp [expDigitsL] at h
  | cons d t =>
    unfold expDigitsL at h
    dsimp only at h
    split at h
    · rename_i hd
      obtain ⟨hk, hl, hs⟩ := finishL_some h
      refine ⟨d :: t.takeWhile isDigit, ⟨by simp, ?_⟩, ?_, hk.symm, hl ▸ hs⟩
      · intro b hb
        rcases List.mem_cons.mp hb with rfl | hb
        · exact hd
        · exact takeWhile_all t b hb
      · rw [← hl]; simp [List.takeWhile_append_dropWhile]
    · simp at h

abbrev ExpPart := Option (UInt8 × Option UInt8 × Bytes)

def ValidExp (x : ExpPart) : Prop := ∀ e sg ds, x = some (e, sg, ds) →
    (e = 0x65 ∨ e = 0x45) ∧ (∀ c, sg = some c → c = 0x2B ∨ c = 0x2D) ∧ Digits ds

def expCount (x : ExpPart) : Nat := match x with
  | none => 0
  | some (_, _, ds) => (ds.dropWhile (· == 0x30)).length

theorem digit_not_sign {d : UInt8} (h : isDigit d = true) : (d == 0x2D || d == 0x2B) = false := by
  simp only [isDigit, Bool.and_eq_true, decide_eq_true_eq, UInt8.le_iff_toNat_le] at h
  simp only [Bool.or_eq_false_iff, beq_eq_false_iff_ne]
  constructor <;> (rintro rfl; exact absurd h (by decide))

theorem expL_complete {x : ExpPart} {l : Bytes} (hx : ValidExp x) (hl : NumStop l) :
    expL (NumParts.expText x ++ l) = (some (expCount x), l) := by
  match x with
  | none =>
    simp only [NumParts.expText, List.nil_append, expCount]
    cases l with
    | nil => rfl
    | cons b t =>
      have hb := hl b rfl
      have : (b == 0x65 || b == 0x45) = false := by
        simp only [isNumberChar, Bool.or_eq_false_iff] at hb
        simp [hb]
      simp only [expL, this]
      exact finishL_stop hl
  | some (e, sg, ds) =>
    obtain ⟨he, hsg, hds⟩ := hx e sg ds rfl
    have he' : (e == 0x65 || e == 0x45) = true := by rcases he with rfl | rfl <;> decide
    simp only [NumParts.expText, List.cons_append, expL, he', if_true, expCount]
    have hd := expDigitsL_complete hds hl
    match sg with
    | none =>
      simp only [Option.toList_none, List.nil_append]
      obtain ⟨hne, hall⟩ := hds
      cases ds with
      | nil => exact absurd rfl hne
      | cons d ds =>
        simp only [List.cons_append] at hd ⊢
        rw [digit_not_sign (hall d (by simp))]
        simpa using hd
    | some c =>
      have hc : (c == 0x2D || c == 0x2B) = true := by rcases hsg c rfl with rfl | rfl <;> decide
      simp only [Option.toList_some, List.cons_append, List.nil_append, hc, if_true]
      exact hd

theorem expL_sound {l l' : Bytes} {k : Nat} (h : expL l = (some k, l')) :
    ∃ x, ValidExp x ∧ l = NumParts.expText x ++ l' ∧ k = expCount x ∧ NumStop l' := by
  have hnone : ValidExp none := by intro e sg ds hh; cases hh
  cases l with
  | nil =>
    simp [expL] at h
    refine ⟨none, hnone, by simp [NumParts.expText, h], h.1.symm, ?_⟩
    intro b hb; rw [h.2] at hb; simp at hb
  | cons b t =>
    unfold expL at h
    dsimp only at h
    split at h
    · rename_i hb
      have he : b = 0x65 ∨ b = 0x45 := by simpa using hb
      cases t with
      | nil => simp at h
      | cons c t' =>
        simp only at h
        split at h
        · rename_i hc
          have hc' : c = 0x2D ∨ c = 0x2B := by simpa using hc
          obtain ⟨ds, hds, hl, hk, hs⟩ := expDigitsL_sound h
          refine ⟨some (b, some c, ds), ?_, ?_, hk, hs⟩
          · intro e sg ds' hh
            simp only [Option.some.injEq, Prod.mk.injEq] at hh
            obtain ⟨rfl, rfl, rfl⟩ := hh
            refine ⟨he, ?_, hds⟩
            intro c' hcc
            simp only [Option.some.injEq] at hcc
            subst hcc
            exact hc'.symm
          · simp [NumParts.expText, hl]
        · obtain ⟨ds, hds, hl, hk, hs⟩ := expDigitsL_sound h
          refine ⟨some (b, none, ds), ?_, ?_, hk, hs⟩
          · intro e sg ds' hh
            simp only [Option.some.injEq, Prod.mk.injEq] at hh
            obtain ⟨rfl, rfl, rfl⟩ := hh
            exact ⟨he, by simp, hds⟩
          · simp [NumParts.expText, hl]
    · obtain ⟨hk, hl, hs⟩ := finishL_some h
      exact ⟨none, hnone, by simp [NumParts.expText, hl], hk.symm, hl ▸ hs⟩

theorem expText_head {x : ExpPart} {l : Bytes} (hx : ValidExp x) (hl : NumStop l) :
    ∀ b, (NumParts.expText x ++ l).head? = some b → isDigit b = false ∧ b ≠ 0x2E := by
  intro b hb
  match x with
  | none =>
    simp only [NumParts.expText, List.nil_append] at hb
    refine ⟨hl.notDigit b hb, ?_⟩
    rintro rfl
    exact absurd (hl _ hb) (by decide)
  | some (e, sg, ds) =>
    simp only [NumParts.expText, List.cons_append, List.head?_cons, Option.some.injEq] at hb
    subst hb
    rcases (hx e sg ds rfl).1 with rfl | rfl <;> decide

theorem fracL_complete {f : Option Bytes} {x : ExpPart} {l : Bytes} (hf : ∀ ds, f = some ds → Digits ds)
    (hx : ValidExp x) (hl : NumStop l) :
    fracL (NumParts.fracText f ++ (NumParts.expText x ++ l)) = (some (expCount x), l) := by
  have hE := expL_complete hx hl
  match f with
  | none =>
    simp only [NumParts.fracText, List.nil_append]
    cases hc : NumParts.expText x ++ l with
    | nil => rw [hc] at hE; rw [← hE]; rfl
    | cons b t =>
      have := (expText_head hx hl b (by rw [hc]; rfl)).2
      rw [hc] at hE
      simp only [fracL]
      rw [if_neg (by simpa using this)]
      exact hE
  | some ds =>
    obtain ⟨hne, hall⟩ := hf ds rfl
    cases ds with
    | nil => exact absurd rfl hne
    | cons d ds =>
      simp only [NumParts.fracText, List.cons_append, fracL, hall d (by simp)]
      rw [dropWhile_digits (fun b hb => hall b (by simp [hb])) (fun b hb => (expText_head hx hl b hb).1)]
      simpa using hE

theorem fracL_sound {l l' : Bytes} {k : Nat} (h : fracL l = (some k, l')) :
    ∃ f x, (∀ ds, f = some ds → Digits ds) ∧ ValidExp x ∧
      l = NumParts.fracText f ++ (NumParts.expText x ++ l') ∧ k = expCount x ∧ NumStop l' := by
  cases l with
  | nil =>
    simp [fracL] at h
    refine ⟨none, none, by simp, (by intro _ _ _ hh; cases hh), by simp [NumParts.fracText, NumParts.expText, h], h.1.symm, ?_⟩
    intro b hb; rw [h.2] at hb; simp at hb
  | cons b t =>
    unfold fracL at h
    dsimp only at h
    split at h
    · rename_i hb
      have hb : b = 0x2E := by simpa using hb
      cases t with
      | nil => simp at h
      | cons d t' =>
        simp only at h
        split at h
        · rename_i hd
          obtain ⟨x, hx, hl, hk, hs⟩ := expL_sound h
          refine ⟨some (d :: t'.takeWhile isDigit), x, ?_, hx, ?_, hk, hs⟩
          · intro ds hh
            cases hh
            refine ⟨by simp, ?_⟩
            intro b hb
            rcases List.mem_cons.mp hb with rfl | hb
            · exact hd
            · exact takeWhile_all t' b hb
          · rw [← hl, hb]; simp [NumParts.fracText, List.takeWhile_append_dropWhile]
        · simp at h
    · obtain ⟨x, hx, hl, hk, hs⟩ := expL_sound h
      exact ⟨none, x, by simp, hx, by simp [NumParts.fracText, hl], hk, hs⟩

theorem fracText_head {f : Option Bytes} {x : ExpPart} {l : Bytes}
    (hx : ValidExp x) (hl : NumStop l) :
    ∀ b, (NumParts.fracText f ++ (NumParts.expText x ++ l)).head? = some b → isDigit b = false := by
  intro b hb
  match f with
  | none => exact (expText_head hx hl b (by simpa [NumParts.fracText] using hb)).1
  | some ds =>
    simp only [NumParts.fracText, List.cons_append, List.head?_cons, Option.some.injEq] at hb
    subst hb; decide

theorem isDigit19_iff {d : UInt8} : isDigit19 d = true ↔ isDigit d = true ∧ d ≠ 0x30 := by
  have := isDigit_split d
  constructor
  · intro h
    rw [h] at this
    exact ⟨by simpa using this.symm, by have := not_isDigit19_zero h; simpa using this⟩
  · rintro ⟨h1, h2⟩
    rw [h1] at this
    simpa [h2] using this

theorem numL_complete {p : NumParts} {l : Bytes} (hp : p.Valid) (hl : NumStop l) :
    numL (p.text ++ l) = (some p.expDigits, l) := by
  have hx : ValidExp p.exp := hp.exp
  have hF := fracL_complete hp.frac hx hl
  have hcount : expCount p.exp = p.expDigits := rfl
  have hI : intL (p.int ++ (NumParts.fracText p.frac ++ (NumParts.expText p.exp ++ l))) = (some p.expDigits, l) := by
    rcases hp.int with h0 | ⟨d, ds, h1, hd, hd0, hds⟩
    · rw [h0]
      simp only [List.cons_append, List.nil_append, intL]
      rw [if_neg (by decide), if_pos (by decide), hF, hcount]
    · rw [h1]
      simp only [List.cons_append, intL]
      rw [if_pos (isDigit19_iff.mpr ⟨hd, hd0⟩), dropWhile_digits hds (fracText_head hx hl), hF, hcount]
  unfold NumParts.text
  cases hm : p.minus with
  | true =>
    simp only [NumParts.signText, if_true, List.cons_append, List.nil_append, List.append_assoc, numL]
    rw [if_pos (by decide)]
    exact hI
  | false =>
    simp only [NumParts.signText, List.append_assoc]
    have hne : ∃ d ds, p.int = d :: ds ∧ d ≠ 0x2D := by
      rcases hp.int with h0 | ⟨d, ds, h1, hd, hd0, hds⟩
      · exact ⟨0x30, [], h0, by decide⟩
      · refine ⟨d, ds, h1, ?_⟩
        rintro rfl
        exact absurd hd (by decide)
    obtain ⟨d, ds, h1, hd⟩ := hne
    rw [h1] at hI
    simp only [h1, List.cons_append, Bool.false_eq_true, if_false, List.nil_append, numL] at hI ⊢
    rw [if_neg (by simpa using hd)]
    exact hI

theorem intL_sound {l l' : Bytes} {k : Nat} (h : intL l = (some k, l')) :
    ∃ p : NumParts, p.Valid ∧ p.minus = false ∧ l = p.text ++ l' ∧ k = p.expDigits ∧ NumStop l' := by
  cases l with
  | nil => simp [intL] at h
  | cons b t =>
    unfold intL at h
    dsimp only at h
    split at h
    · rename_i hb
      obtain ⟨f, x, hf, hx, hl, hk, hs⟩ := fracL_sound h
      refine ⟨⟨false, b :: t.takeWhile isDigit, f, x⟩, ⟨Or.inr ?_, hf, hx⟩, rfl, ?_, hk, hs⟩
      · obtain ⟨h1, h2⟩ := isDigit19_iff.mp hb
        exact ⟨b, _, rfl, h1, h2, takeWhile_all t⟩
      · simp only [NumParts.text, NumParts.signText, Bool.false_eq_true, if_false, List.nil_append,
          List.cons_append, List.append_assoc, ← hl, List.takeWhile_append_dropWhile]
    · split at h
      · rename_i hb
        have hb : b = 0x30 := by simpa using hb
        obtain ⟨f, x, hf, hx, hl, hk, hs⟩ := fracL_sound h
        refine ⟨⟨false, [0x30], f, x⟩, ⟨Or.inl rfl, hf, hx⟩, rfl, ?_, hk, hs⟩
        simp only [NumParts.text, NumParts.signText, Bool.false_eq_true, if_false, List.nil_append,
          List.cons_append, List.append_assoc, ← hl, hb]
      · simp at h

theorem numL_sound {l l' : Bytes} {k : Nat} (h : numL l = (some k, l')) :
    ∃ p : NumParts, p.Valid ∧ l = p.text ++ l' ∧ k = p.expDigits ∧ NumStop l' := by
  cases l with
  | nil => simp [numL] at h
  | cons b t =>
    unfold numL at h
    dsimp only at h
    split at h
    · rename_i hb
      have hb : b = 0x2D := by simpa using hb
      obtain ⟨p, hv, hm, hl, hk, hs⟩ := intL_sound h
      refine ⟨{ p with minus := true }, ⟨hv.int, hv.frac, hv.exp⟩, ?_, hk, hs⟩
      rw [hb, hl]
      simp [NumParts.text, NumParts.signText, hm]
    · obtain ⟨p, hv, _, hl, hk, hs⟩ := intL_sound h
      exact ⟨p, hv, hl, hk, hs⟩

/-- what the scanner leaves is a suffix of its input -/
theorem finishL_snd (c : Nat) (l : Bytes) : (finishL c l).2 = l := by
  cases l with
  | nil => rfl
  | cons b t => simp only [finishL]; split <;> rfl

theorem dropWhile_suffix' (t : Bytes) : t.dropWhile isDigit <:+ t := List.dropWhile_suffix isDigit

theorem expDigitsL_suffix (l : Bytes) : (expDigitsL l).2 <:+ l := by
  cases l with
  | nil => exact List.suffix_refl _
  | cons d t =>
    unfold expDigitsL; dsimp only; split
    · rw [finishL_snd]; exact (dropWhile_suffix' t).trans (List.suffix_cons d t)
    · exact List.suffix_refl _

theorem expL_suffix (l : Bytes) : (expL l).2 <:+ l := by
  cases l with
  | nil => exact List.suffix_refl _
  | cons b t =>
    unfold expL; dsimp only; split
    · cases t with
      | nil => exact List.nil_suffix
      | cons c t' =>
        simp only; split
        · exact (expDigitsL_suffix t').trans ((List.suffix_cons c t').trans (List.suffix_cons b _))
        · exact (expDigitsL_suffix _).trans (List.suffix_cons b _)
    · rw [finishL_snd]; exact List.suffix_refl _

theorem fracL_suffix (l : Bytes) : (fracL l).2 <:+ l := by
  cases l with
  | nil => exact List.suffix_refl _
  | cons b t =>
    unfold fracL; dsimp only; split
    · cases t with
      | nil => exact List.nil_suffix
      | cons c t' =>
        simp only; split
        · exact (expL_suffix _).trans ((dropWhile_suffix' t').trans ((List.suffix_cons c t').trans (List.suffix_cons b _)))
        · exact List.suffix_cons b _
    · exact expL_suffix _

theorem intL_suffix (l : Bytes) : (intL l).2 <:+ l := by
  cases l with
  | nil => exact List.suffix_refl _
  | cons b t =>
    unfold intL; dsimp only; split
    · exact (fracL_suffix _).trans ((dropWhile_suffix' t).trans (List.suffix_cons b _))
    · split
      · exact (fracL_suffix _).trans (List.suffix_cons b _)
      · exact List.suffix_refl _

theorem numL_suffix (l : Bytes) : (numL l).2 <:+ l := by
  cases l with
  | nil => exact List.suffix_refl _
  | cons b t =>
    unfold numL; dsimp only; split
    · exact (intL_suffix t).trans (List.suffix_cons b _)
    · exact intL_suffix _

/-- every character of a number is a number character -/
theorem text_chars {p : NumParts} (hp : p.Valid) : ∀ b ∈ p.text, isNumberChar b = true := by
  intro b hb
  simp only [NumParts.text, List.mem_append] at hb
  rcases hb with hb | hb | hb | hb
  · cases hm : p.minus <;> simp [NumParts.signText, hm] at hb
    subst hb; decide
  · rcases hp.int with h0 | ⟨d, ds, h1, hd, hd0, hds⟩
    · rw [h0] at hb; simp at hb; subst hb; decide
    · rw [h1] at hb
      rcases List.mem_cons.mp hb with rfl | hb
      · exact isNumberChar_of_isDigit hd
      · exact isNumberChar_of_isDigit (hds b hb)
  · cases hf : p.frac with
    | none => simp [NumParts.fracText, hf] at hb
    | some ds =>
      simp only [NumParts.fracText, hf] at hb
      rcases List.mem_cons.mp hb with rfl | hb
      · decide
      · exact isNumberChar_of_isDigit ((hp.frac ds hf).2 b hb)
  · cases hx : p.exp with
    | none => simp [NumParts.expText, hx] at hb
    | some y =>
      obtain ⟨e, sg, ds⟩ := y
      obtain ⟨he, hsg, hds⟩ := hp.exp e sg ds hx
      simp only [NumParts.expText, hx] at hb
      rcases List.mem_cons.mp hb with rfl | hb
      · rcases he with rfl | rfl <;> decide
      · rcases List.mem_append.mp hb with hb | hb
        · cases sg with
          | none => simp at hb
          | some c =>
            simp at hb; subst hb
            rcases hsg b rfl with rfl | rfl <;> decide
        · exact isNumberChar_of_isDigit (hds.2 b hb)

theorem text_ne_nil {p : NumParts} (hp : p.Valid) : p.text ≠ [] := by
  intro h
  simp only [NumParts.text, List.append_eq_nil_iff] at h
  have := h.2.1
  rcases hp.int with h0 | ⟨d, ds, h1, _⟩
  · rw [h0] at this; cases this
  · rw [h1] at this; cases this

/-- The parts with the given text are unique as far as the exponent digits are concerned -/
theorem expDigits_unique {p q : NumParts} (hp : p.Valid) (hq : q.Valid) (h : p.text = q.text) :
    p.expDigits = q.expDigits := by
  have h1 := numL_complete hp (l := []) (by intro b hb; simp at hb)
  have h2 := numL_complete hq (l := []) (by intro b hb; simp at hb)
  rw [h, h2] at h1
  simpa using h1.symm

/-- `numL` with the end of the input behind the number -/
theorem numL_nil_iff {bs : Bytes} : (∃ k, numL bs = (some k, [])) ↔ IsNumber bs := by
  constructor
  · rintro ⟨k, h⟩
    obtain ⟨p, hv, hl, _, _⟩ := numL_sound h
    exact ⟨p, hv, by simpa using hl.symm⟩
  · rintro ⟨p, hv, rfl⟩
    have := numL_complete hv (l := []) (by intro b hb; simp at hb)
    exact ⟨p.expDigits, by simpa using this⟩

/-! ### The slice provider -/

theorem sliceProvider (bs : Bytes) :
    IsProvider SliceProvider.next (fun s l => s.bytes = bs ∧ s.bytes.drop s.index = l ∧ s.index ≤ s.bytes.length) := by
  rintro s b t ⟨h1, h2, h3⟩
  refine ⟨{ s with index := s.index + 1 }, ?_, h1, ?_, ?_⟩
  · have : t = s.bytes.drop (s.index + 1) := by
      rw [← List.drop_drop, h2]; rfl
    simp [SliceProvider.next, this, List.head?_drop]
  · show s.bytes.drop (s.index + 1) = t
    rw [← List.drop_drop, h2]; rfl
  · show s.index + 1 ≤ s.bytes.length
    have := congrArg List.length h2
    simp at this
    omega

theorem isValidJsonNumber_iff (bs : Bytes) : isValidJsonNumber bs = true ↔ IsNumber bs := by
  cases bs with
  | nil =>
    constructor
    · intro h; cases h
    · rintro ⟨p, hv, h⟩; exact absurd h (text_ne_nil hv)
  | cons b t =>
    obtain ⟨s', h, hb, hd, hi⟩ := consumeJsonNumber_spec (sliceProvider (b :: t)) (oof := ()) ((b :: t).length + 1)
      ⟨b :: t, 0⟩ b t ⟨rfl, rfl, by simp⟩ (by simp; omega)
    rw [← numL_nil_iff]
    simp only [isValidJsonNumber, h, Bool.and_eq_true, decide_eq_true_eq]
    rw [hb] at hd hi
    constructor
    · rintro ⟨h1, h2⟩
      have : (numL (b :: t)).2 = [] := by
        rw [← hd]; exact List.drop_eq_nil_of_le (by simpa using h2)
      obtain ⟨k, hk⟩ := Option.isSome_iff_exists.mp h1
      exact ⟨k, by rw [← hk, ← this]⟩
    · rintro ⟨k, hk⟩
      rw [hk] at hd ⊢
      refine ⟨rfl, ?_⟩
      exact List.drop_eq_nil_iff.mp hd

end Verif.JsonNumber
