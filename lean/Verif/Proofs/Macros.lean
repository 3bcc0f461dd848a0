import Verif.Spec.Macros
/-!
# Proofs for the macros `json_path!` and `multi_json_path!`
-/

namespace Verif.Proofs.Macros
open Verif.Macros MacroSpec
open SimpleReader (MultiPiece)

theorem listed_exprs {ts : List Tok} {as : List Arg} (h : exprList ts = some as) : Listed (fun a => [.expr a]) as ts := by
  induction ts using exprList.induct generalizing as with
  | case1 a => cases h; exact .last a
  | case2 a => cases h; exact .more a .nil
  | case3 a ts hne ih =>
    rw [exprList.eq_3 _ _ hne] at h
    cases h1 : exprList ts with
    | none => rw [h1] at h; cases h
    | some bs => rw [h1] at h; cases h; exact .more a (ih h1)
  | case4 ts h1 h2 h3 => rw [exprList.eq_4 _ h1 h2 h3] at h; cases h

theorem exprs_listed {ts : List Tok} {as : List Arg} (h : Listed (fun a => [.expr a]) as ts) (hne : as ≠ []) : exprList ts = some as := by
  induction h with
  | nil => exact absurd rfl hne
  | last a => rfl
  | more a h ih =>
    cases h with
    | nil => rfl
    | last b => rfl
    | more b h => rw [List.singleton_append, exprList.eq_3 _ _ (by simp), ih (by simp)]; rfl

theorem listed_map {α β : Type} {f : α → List Tok} {g : β → List Tok} {m : α → β} (hm : ∀ a, g (m a) = f a) {as : List α} {ts : List Tok} (h : Listed f as ts) : Listed g (as.map m) ts := by
  induction h with
  | nil => exact .nil
  | last a => rw [← hm]; exact .last _
  | more a _ ih => rw [← hm]; exact .more _ ih

/-- argument for a piece -/
def argOf : PathPiece → Arg
  | .arrayItem n => .int n
  | .objectMember t => .str t

theorem impl_sound (n : Nat) : ∀ {ts : List Tok} {pieces : List MultiPiece} {comma : Bool} {r : List MultiPiece}, ts.length ≤ n → multiPathImpl pieces comma ts = some r →
    ((pieces = [] ∨ comma = true) → ∃ qs, r = pieces ++ qs ∧ Listed multiTokens qs ts) ∧
    (pieces ≠ [] → comma = false → (ts = [] ∧ r = pieces) ∨ ∃ rest qs, ts = .comma :: rest ∧ r = pieces ++ qs ∧ Listed multiTokens qs rest) := by
  induction n with
  | zero =>
    intro ts pieces comma r hn h
    cases List.length_eq_zero_iff.1 (Nat.le_zero.1 hn)
    rw [multiPathImpl] at h
    cases h
    exact ⟨fun _ => ⟨[], by simp, .nil⟩, fun _ _ => .inl ⟨rfl, rfl⟩⟩
  | succ n ih =>
    intro ts pieces comma r hn h
    have hopen : ∀ {x : Option (List MultiPiece)}, (if (pieces.isEmpty || comma) = true then x else none) = some r → x = some r ∧ ¬ (pieces ≠ [] ∧ comma = false) := by
      intro x hx
      split at hx
      · rename_i hc
        refine ⟨hx, ?_⟩
        rintro ⟨h1, h2⟩
        rw [h2, Bool.or_false, List.isEmpty_iff] at hc
        exact h1 hc
      · cases hx
    -- a piece with its own comma
    have key1 : ∀ {p : MultiPiece} {rest : List Tok}, rest.length ≤ n → multiPathImpl (pieces ++ [p]) true rest = some r →
        ∃ qs, r = pieces ++ qs ∧ Listed multiTokens qs (multiTokens p ++ .comma :: rest) := by
      intro p rest hr hx
      obtain ⟨qs, h1, h2⟩ := (ih hr hx).1 (.inr rfl)
      exact ⟨p :: qs, by rw [h1]; simp, .more p h2⟩
    -- a piece at the end
    have key2 : ∀ {p : MultiPiece}, multiPathImpl (pieces ++ [p]) true [] = some r → ∃ qs, r = pieces ++ qs ∧ Listed multiTokens qs (multiTokens p) := by
      intro p hx
      rw [multiPathImpl] at hx
      cases hx
      exact ⟨[p], rfl, .last p⟩
    -- a piece without comma
    have key3 : ∀ {p : MultiPiece} {rest : List Tok}, rest.length ≤ n → multiPathImpl (pieces ++ [p]) false rest = some r →
        ∃ qs, r = pieces ++ qs ∧ Listed multiTokens qs (multiTokens p ++ rest) := by
      intro p rest hr hx
      rcases (ih hr hx).2 (by simp) rfl with ⟨rfl, h2⟩ | ⟨rest', qs, rfl, h2, h3⟩
      · exact ⟨[p], by rw [h2], by rw [List.append_nil]; exact .last p⟩
      · exact ⟨p :: qs, by rw [h2]; simp, .more p h3⟩
    revert h
    match ts, hn with
    | .arrayStar :: rest, hn =>
      rw [multiPathImpl]; intro h
      obtain ⟨h1, h2⟩ := hopen h
      exact ⟨fun _ => key3 (p := .allArrayItems true) (Nat.le_of_succ_le_succ hn) h1, fun a b => absurd ⟨a, b⟩ h2⟩
    | .arrayPlus :: rest, hn =>
      rw [multiPathImpl]; intro h
      obtain ⟨h1, h2⟩ := hopen h
      exact ⟨fun _ => key3 (p := .allArrayItems false) (Nat.le_of_succ_le_succ hn) h1, fun a b => absurd ⟨a, b⟩ h2⟩
    | .objectStar :: rest, hn =>
      rw [multiPathImpl]; intro h
      obtain ⟨h1, h2⟩ := hopen h
      exact ⟨fun _ => key3 (p := .allObjectMembers true) (Nat.le_of_succ_le_succ hn) h1, fun a b => absurd ⟨a, b⟩ h2⟩
    | .objectPlus :: rest, hn =>
      rw [multiPathImpl]; intro h
      obtain ⟨h1, h2⟩ := hopen h
      exact ⟨fun _ => key3 (p := .allObjectMembers false) (Nat.le_of_succ_le_succ hn) h1, fun a b => absurd ⟨a, b⟩ h2⟩
    | .question :: .expr a :: .comma :: rest, hn =>
      rw [multiPathImpl]; intro h
      obtain ⟨h1, h2⟩ := hopen h
      cases a with
      | int _ => cases h1
      | str t => exact ⟨fun _ => key1 (p := .optionalObjectMember t) (by simp at hn; omega) h1, fun a b => absurd ⟨a, b⟩ h2⟩
    | [.question, .expr a], hn =>
      rw [multiPathImpl]; intro h
      obtain ⟨h1, h2⟩ := hopen h
      cases a with
      | int _ => cases h1
      | str t => exact ⟨fun _ => key2 (p := .optionalObjectMember t) h1, fun a b => absurd ⟨a, b⟩ h2⟩
    | .expr a :: .comma :: rest, hn =>
      rw [multiPathImpl]; intro h
      obtain ⟨h1, h2⟩ := hopen h
      refine ⟨fun _ => ?_, fun a b => absurd ⟨a, b⟩ h2⟩
      cases a with
      | int i => exact key1 (p := .arrayItem i) (by simp at hn; omega) h1
      | str t => exact key1 (p := .objectMember t) (by simp at hn; omega) h1
    | [.expr a], hn =>
      rw [multiPathImpl]; intro h
      obtain ⟨h1, h2⟩ := hopen h
      refine ⟨fun _ => ?_, fun a b => absurd ⟨a, b⟩ h2⟩
      cases a with
      | int i => exact key2 (p := .arrayItem i) h1
      | str t => exact key2 (p := .objectMember t) h1
    | .comma :: rest, hn =>
      rw [multiPathImpl]; intro h
      split at h
      · rename_i hc
        have hc1 : pieces ≠ [] := by rintro rfl; simp at hc
        have hc2 : comma = false := by cases comma; rfl; simp at hc
        obtain ⟨qs, h1, h2⟩ := (ih (Nat.le_of_succ_le_succ hn) h).1 (.inr rfl)
        refine ⟨fun ho => ?_, fun _ _ => .inr ⟨rest, qs, rfl, h1, h2⟩⟩
        rcases ho with ho | ho
        · exact absurd ho hc1
        · rw [hc2] at ho; cases ho
      · cases h
    | [], _ =>
      rw [multiPathImpl]; rintro ⟨⟩
      exact ⟨fun _ => ⟨[], by simp, .nil⟩, fun _ _ => .inl ⟨rfl, rfl⟩⟩
    | [.question], _ => rw [multiPathImpl]; rintro ⟨⟩; all_goals simp
    | .question :: .comma :: _, _ => rw [multiPathImpl]; rintro ⟨⟩; all_goals simp
    | .question :: .question :: _, _ => rw [multiPathImpl]; rintro ⟨⟩; all_goals simp
    | .question :: .arrayStar :: _, _ => rw [multiPathImpl]; rintro ⟨⟩; all_goals simp
    | .question :: .arrayPlus :: _, _ => rw [multiPathImpl]; rintro ⟨⟩; all_goals simp
    | .question :: .objectStar :: _, _ => rw [multiPathImpl]; rintro ⟨⟩; all_goals simp
    | .question :: .objectPlus :: _, _ => rw [multiPathImpl]; rintro ⟨⟩; all_goals simp
    | .question :: .expr _ :: .expr _ :: _, _ => rw [multiPathImpl]; rintro ⟨⟩; all_goals simp
    | .question :: .expr _ :: .question :: _, _ => rw [multiPathImpl]; rintro ⟨⟩; all_goals simp
    | .question :: .expr _ :: .arrayStar :: _, _ => rw [multiPathImpl]; rintro ⟨⟩; all_goals simp
    | .question :: .expr _ :: .arrayPlus :: _, _ => rw [multiPathImpl]; rintro ⟨⟩; all_goals simp
    | .question :: .expr _ :: .objectStar :: _, _ => rw [multiPathImpl]; rintro ⟨⟩; all_goals simp
    | .question :: .expr _ :: .objectPlus :: _, _ => rw [multiPathImpl]; rintro ⟨⟩; all_goals simp
    | .expr _ :: .expr _ :: _, _ => rw [multiPathImpl]; rintro ⟨⟩; all_goals simp
    | .expr _ :: .question :: _, _ => rw [multiPathImpl]; rintro ⟨⟩; all_goals simp
    | .expr _ :: .arrayStar :: _, _ => rw [multiPathImpl]; rintro ⟨⟩; all_goals simp
    | .expr _ :: .arrayPlus :: _, _ => rw [multiPathImpl]; rintro ⟨⟩; all_goals simp
    | .expr _ :: .objectStar :: _, _ => rw [multiPathImpl]; rintro ⟨⟩; all_goals simp
    | .expr _ :: .objectPlus :: _, _ => rw [multiPathImpl]; rintro ⟨⟩; all_goals simp

theorem impl_complete {qs : List MultiPiece} {ts : List Tok} (h : Listed multiTokens qs ts) : ∀ (pieces : List MultiPiece) (comma : Bool), (pieces.isEmpty || comma) = true →
    multiPathImpl pieces comma ts = some (pieces ++ qs) := by
  induction h with
  | nil => intro pieces comma _; rw [multiPathImpl]; simp
  | last p =>
    intro pieces comma ho
    have e : multiPathImpl (pieces ++ [p]) true [] = some (pieces ++ [p]) := by rw [multiPathImpl]
    have e' : multiPathImpl (pieces ++ [p]) false [] = some (pieces ++ [p]) := by rw [multiPathImpl]
    match p, e, e' with
    | .arrayItem n, e, _ => rw [multiTokens, multiPathImpl, if_pos ho]; exact e
    | .objectMember n, e, _ => rw [multiTokens, multiPathImpl, if_pos ho]; exact e
    | .optionalObjectMember n, e, _ => rw [multiTokens, multiPathImpl, if_pos ho]; exact e
    | .allArrayItems true, _, e => rw [multiTokens, multiPathImpl, if_pos ho]; exact e
    | .allArrayItems false, _, e => rw [multiTokens, multiPathImpl, if_pos ho]; exact e
    | .allObjectMembers true, _, e => rw [multiTokens, multiPathImpl, if_pos ho]; exact e
    | .allObjectMembers false, _, e => rw [multiTokens, multiPathImpl, if_pos ho]; exact e
  | more p h ih =>
    rename_i ps ts
    intro pieces comma ho
    have e : multiPathImpl (pieces ++ [p]) true ts = some (pieces ++ p :: ps) := by rw [ih _ _ (by simp)]; simp
    have e' : multiPathImpl (pieces ++ [p]) false (.comma :: ts) = some (pieces ++ p :: ps) := by rw [multiPathImpl, if_pos (by simp)]; exact e
    match p, e, e' with
    | .arrayItem n, e, _ => rw [multiTokens, List.singleton_append, multiPathImpl, if_pos ho]; exact e
    | .objectMember n, e, _ => rw [multiTokens, List.singleton_append, multiPathImpl, if_pos ho]; exact e
    | .optionalObjectMember n, e, _ => rw [multiTokens, List.cons_append, List.singleton_append, multiPathImpl, if_pos ho]; exact e
    | .allArrayItems true, _, e => rw [multiTokens, List.singleton_append, multiPathImpl, if_pos ho]; exact e
    | .allArrayItems false, _, e => rw [multiTokens, List.singleton_append, multiPathImpl, if_pos ho]; exact e
    | .allObjectMembers true, _, e => rw [multiTokens, List.singleton_append, multiPathImpl, if_pos ho]; exact e
    | .allObjectMembers false, _, e => rw [multiTokens, List.singleton_append, multiPathImpl, if_pos ho]; exact e

end Verif.Proofs.Macros
