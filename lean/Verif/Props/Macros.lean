import Verif.Proofs.Macros
/-!
# The macros `json_path!` and `multi_json_path!`
-/

namespace Verif.Props
open Macros MacroSpec Proofs.Macros
open SimpleReader (MultiPiece)

/-- C67: `multi_json_path!` accepts exactly the lists of the documented notations for pieces, separated by commas with an optional comma at the end,
and creates the path with these pieces in this order. -/
theorem C67_multi_json_path (ts : List Tok) (ps : List MultiPiece) : multiJsonPath ts = some ps ↔ Listed multiTokens ps ts := by
  constructor
  · intro h
    obtain ⟨qs, h1, h2⟩ := (impl_sound ts.length (Nat.le_refl _) h).1 (.inl rfl)
    rw [h1]
    exact h2
  · intro h
    exact impl_complete h [] false rfl

/-- `multi_json_path!["books", [*], ?"awards", [+],]` -/
example : multiJsonPath [.expr (.str ['b']), .comma, .arrayStar, .comma, .question, .expr (.str ['a']), .comma, .arrayPlus, .comma] =
    some [.objectMember ['b'], .allArrayItems true, .optionalObjectMember ['a'], .allArrayItems false] :=
  (C67_multi_json_path _ _).2 (.more _ (.more _ (.more _ (.more _ .nil))))

/-- C67: the same for `json_path!` -/
theorem C67_json_path (ts : List Tok) (ps : List PathPiece) : jsonPath ts = some ps ↔ Listed tokens ps ts := by
  constructor
  · intro h
    match ts, h with
    | [], h => cases h; exact .nil
    | t :: ts, h =>
      replace h : (exprList (t :: ts)).map (fun as => as.map pieceFrom) = some ps := h
      cases h1 : exprList (t :: ts) with
      | none => rw [h1] at h; cases h
      | some as =>
        rw [h1] at h
        cases h
        exact listed_map (m := pieceFrom) (fun a => by cases a <;> rfl) (listed_exprs h1)
  · intro h
    have h1 : Listed (fun a => [Tok.expr a]) (ps.map argOf) ts := listed_map (fun p => by cases p <;> rfl) h
    have h2 : (ps.map argOf).map pieceFrom = ps := by
      rw [List.map_map]
      exact (List.map_congr_left fun p _ => by cases p <;> rfl).trans (List.map_id ps)
    match ts, h, h1 with
    | [], h, _ =>
      generalize hts : ([] : List Tok) = ts' at h
      cases h with
      | nil => rfl
      | last p => cases p <;> cases hts
      | more p h => cases p <;> cases hts
    | t :: ts, h, h1 =>
      have hne : ps.map argOf ≠ [] := by intro hp; rw [List.map_eq_nil_iff] at hp; subst hp; cases h
      show (exprList (t :: ts)).map (fun as => as.map pieceFrom) = some ps
      rw [exprs_listed h1 hne]
      exact congrArg some h2

/-- C67: where `json_path!` can be used, `multi_json_path!` creates the same path -/
theorem C67_same (ts : List Tok) {ps : List PathPiece} (h : jsonPath ts = some ps) : multiJsonPath ts = some (ps.map toMulti) :=
  (C67_multi_json_path ..).2 (listed_map (fun p => by cases p <;> rfl) ((C67_json_path ..).1 h))

/-- `json_path!["a", 1]`; two commas are not accepted, nor a comma only -/
example : jsonPath [.expr (.str ['a']), .comma, .expr (.int 1)] = some [.objectMember ['a'], .arrayItem 1] ∧
    jsonPath [.expr (.str ['a']), .comma, .comma] = none ∧ jsonPath [.comma] = none := by
  decide

end Verif.Props
