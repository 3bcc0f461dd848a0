import Verif.Proofs.Number
/-!
# Property C03: strings accepted as JSON number
-/

namespace Verif.Props
open JsonNumber

/-- C03: `is_valid_json_number` (used by `number_value_from_string` and for map keys) accepts exactly the numbers of the
RFC 8259 grammar. -/
theorem C03_valid_number_iff (bs : Bytes) : isValidJsonNumber bs = true ↔ IsNumber bs :=
  isValidJsonNumber_iff bs

/-- non-trivial accepted number: `-10.5e+07` -/
example : IsNumber [0x2D, 0x31, 0x30, 0x2E, 0x35, 0x65, 0x2B, 0x30, 0x37] :=
  ⟨⟨true, [0x31, 0x30], some [0x35], some (0x65, some 0x2B, [0x30, 0x37])⟩,
    ⟨.inr ⟨0x31, [0x30], rfl, by decide, by decide, by decide⟩,
      by rintro _ ⟨⟩; exact ⟨by decide, by decide⟩,
      by rintro _ _ _ ⟨⟩; exact ⟨.inl rfl, by rintro _ ⟨⟩; exact .inl rfl, by decide, by decide⟩⟩, rfl⟩

/-- rejected: `01`, `1.`, `+1`, `` -/
example : isValidJsonNumber [0x30, 0x31] = false ∧ isValidJsonNumber [0x31, 0x2E] = false
    ∧ isValidJsonNumber [0x2B, 0x31] = false ∧ isValidJsonNumber [] = false := by decide

end Verif.Props
