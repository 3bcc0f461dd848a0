import Verif.Model.Display
import Verif.Spec.Message
import Verif.Proofs.Ser.Value
import Verif.Proofs.De.Number
/-!
# Texts of positions and errors
-/

namespace Verif.Props
open Reader Display Message
open Writer (natToString)
open Ser (natToString_eq)
open DeSpec (toDigits_chars toDigits_ne_nil natValue_toDigits)

attribute [local irreducible] String.toList

/-! ## Splitting -/

private theorem split_first {c : Char} : ∀ {a b x y : Text}, c ∉ a → c ∉ b → a ++ c :: x = b ++ c :: y → a = b ∧ x = y := by
  intro a
  induction a with
  | nil =>
    intro b x y _ hb h
    cases b with
    | nil => exact ⟨rfl, (List.cons.inj h).2⟩
    | cons d b => exact absurd (List.mem_cons.2 (.inl (List.cons.inj h).1)) hb
  | cons d a ih =>
    intro b x y ha hb h
    cases b with
    | nil => exact absurd (List.mem_cons.2 (.inl (List.cons.inj h).1.symm)) ha
    | cons d' b =>
      obtain ⟨h1, h2⟩ := ih (fun h => ha (List.mem_cons_of_mem _ h)) (fun h => hb (List.mem_cons_of_mem _ h)) (List.cons.inj h).2
      exact ⟨by rw [(List.cons.inj h).1, h1], h2⟩

private theorem split_last {c : Char} {a b x y : Text} (hx : c ∉ x) (hy : c ∉ y) (h : a ++ c :: x = b ++ c :: y) : a = b ∧ x = y := by
  have h' := congrArg List.reverse h
  simp only [List.reverse_append, List.reverse_cons, List.append_assoc, List.cons_append, List.nil_append] at h'
  obtain ⟨h1, h2⟩ := split_first (by simpa using hx) (by simpa using hy) h'
  exact ⟨List.reverse_inj.1 h2, List.reverse_inj.1 h1⟩

private theorem digits {n : Nat} {c : Char} (h : c ∈ natToString n) : 0x30 ≤ c.toNat ∧ c.toNat ≤ 0x39 := by
  rw [natToString_eq] at h
  exact toDigits_chars n c h

private theorem no_char {n : Nat} {c : Char} (h : ¬ (0x30 ≤ c.toNat ∧ c.toNat ≤ 0x39)) : c ∉ natToString n := fun hc => h (digits hc)

private theorem number_inj {n m : Nat} (h : natToString n = natToString m) : n = m := by
  rw [natToString_eq, natToString_eq] at h
  exact Option.some.inj ((natValue_toDigits n).symm.trans (h ▸ natValue_toDigits m))

private theorem number_last (n : Nat) : ∃ ds d, natToString n = ds ++ [d] ∧ 0x30 ≤ d.toNat ∧ d.toNat ≤ 0x39 := by
  have hne : natToString n ≠ [] := by rw [natToString_eq]; exact toDigits_ne_nil n
  refine ⟨_, _, (List.dropLast_concat_getLast hne).symm, digits (List.getLast_mem hne)⟩

private theorem last_ne {a b : Text} {c d : Char} (hc : c ≠ d) (h : a ++ [c] = b ++ [d]) : False := hc (List.append_inj_right' h rfl |> fun h => (List.cons.inj h).1)

/-- a text which does not end with a digit -/
private theorem not_number {a b : Text} {n : Nat} {c : Char} (hc : ¬ (0x30 ≤ c.toNat ∧ c.toNat ≤ 0x39)) (h : a ++ [c] = b ++ natToString n) : False := by
  obtain ⟨ds, d, h1, h2⟩ := number_last n
  rw [h1, ← List.append_assoc] at h
  exact last_ne (fun hcd => hc (by rw [hcd]; exact h2)) h

/-! ## Line, column and offset -/

/-- what follows the path -/
private def tail (lp : Option (Nat × Nat)) (dp : Option Nat) : Text :=
  match lp with
  | some (line, column) => ", ".toList ++ linePosition line column ++
    match dp with
    | some dataPos => " (data pos ".toList ++ natToString dataPos ++ ")".toList
    | none => []
  | none =>
    match dp with
    | some dataPos => ", data pos ".toList ++ natToString dataPos
    | none => []

private theorem line_inj {Y Y' : Text} {l c l' c' : Nat} (h : Y ++ linePosition l c = Y' ++ linePosition l' c') : Y = Y' ∧ l = l' ∧ c = c' := by
  have e : ∀ (Y : Text) (l c : Nat), Y ++ linePosition l c = ((Y ++ "line".toList ++ ' ' :: natToString l) ++ ", column".toList) ++ ' ' :: natToString c := by
    intro Y l c
    simp [linePosition]
  rw [e, e] at h
  obtain ⟨h1, h2⟩ := split_last (no_char (by decide)) (no_char (by decide)) h
  obtain ⟨h3, h4⟩ := split_last (no_char (by decide)) (no_char (by decide)) (List.append_cancel_right h1)
  exact ⟨List.append_cancel_right h3, number_inj h4, number_inj h2⟩

private theorem paren_inj {Y Y' : Text} {d d' : Nat} (h : Y ++ (" (data pos ".toList ++ natToString d ++ ")".toList) = Y' ++ (" (data pos ".toList ++ natToString d' ++ ")".toList)) : Y = Y' ∧ d = d' := by
  have e : ∀ (Y : Text) (d : Nat), Y ++ (" (data pos ".toList ++ natToString d ++ ")".toList) = ((Y ++ " (data pos".toList) ++ ' ' :: natToString d) ++ [')'] := by
    intro Y d
    simp
  rw [e, e] at h
  obtain ⟨h1, h2⟩ := split_last (no_char (by decide)) (no_char (by decide)) (List.append_cancel_right h)
  exact ⟨List.append_cancel_right h1, number_inj h2⟩

private theorem line_data {Y Y' : Text} {l c d : Nat} (h : Y ++ linePosition l c = Y' ++ ("data pos ".toList ++ natToString d)) : False := by
  have e1 : Y ++ linePosition l c = (Y ++ "line ".toList ++ natToString l ++ ", colum".toList ++ ['n']) ++ ' ' :: natToString c := by simp [linePosition]
  have e2 : Y' ++ ("data pos ".toList ++ natToString d) = (Y' ++ "data po".toList ++ ['s']) ++ ' ' :: natToString d := by simp
  rw [e1, e2] at h
  obtain ⟨h1, _⟩ := split_last (no_char (by decide)) (no_char (by decide)) h
  exact last_ne (by decide) h1

private theorem paren_line {Y Y' : Text} {l c d : Nat} (h : Y ++ (" (data pos ".toList ++ natToString d ++ ")".toList) = Y' ++ linePosition l c) : False := by
  refine not_number (c := ')') (n := c) (by decide) (a := Y ++ (" (data pos ".toList ++ natToString d)) (b := Y' ++ ("line ".toList ++ natToString l ++ ", column ".toList)) ?_
  simpa [linePosition] using h

private theorem paren_data {Y Y' : Text} {d d' : Nat} (h : Y ++ (" (data pos ".toList ++ natToString d ++ ")".toList) = Y' ++ ("data pos ".toList ++ natToString d')) : False := by
  refine not_number (c := ')') (n := d') (by decide) (a := Y ++ (" (data pos ".toList ++ natToString d)) (b := Y' ++ "data pos ".toList) ?_
  simpa using h

private theorem line_end {Y Y' : Text} {l c : Nat} (h : Y' ++ ['\''] = Y ++ linePosition l c) : False := by
  refine not_number (c := '\'') (n := c) (by decide) (a := Y') (b := Y ++ ("line ".toList ++ natToString l ++ ", column ".toList)) ?_
  simpa [linePosition] using h

private theorem data_end {Y Y' : Text} {d : Nat} (h : Y' ++ ['\''] = Y ++ ("data pos ".toList ++ natToString d)) : False := by
  refine not_number (c := '\'') (n := d) (by decide) (a := Y') (b := Y ++ "data pos ".toList) ?_
  simpa using h

private theorem paren_end {Y Y' : Text} {d : Nat} (h : Y' ++ ['\''] = Y ++ (" (data pos ".toList ++ natToString d ++ ")".toList)) : False := by
  refine last_ne (c := '\'') (d := ')') (by decide) (a := Y') (b := Y ++ (" (data pos ".toList ++ natToString d)) ?_
  simpa using h

private theorem data_inj {Y Y' : Text} {d d' : Nat} (h : Y ++ ("data pos ".toList ++ natToString d) = Y' ++ ("data pos ".toList ++ natToString d')) : Y = Y' ∧ d = d' := by
  have e : ∀ (Y : Text) (d : Nat), Y ++ ("data pos ".toList ++ natToString d) = (Y ++ "data pos".toList) ++ ' ' :: natToString d := by intro Y d; simp
  rw [e, e] at h
  obtain ⟨h1, h2⟩ := split_last (no_char (by decide)) (no_char (by decide)) h
  exact ⟨List.append_cancel_right h1, number_inj h2⟩

private theorem tail_inj {Z Z' : Text} {lp lp' : Option (Nat × Nat)} {dp dp' : Option Nat} (h : Z ++ ['\''] ++ tail lp dp = Z' ++ ['\''] ++ tail lp' dp') : Z = Z' ∧ lp = lp' ∧ dp = dp' := by
  rcases lp with _ | ⟨l, c⟩ <;> rcases dp with _ | d <;> rcases lp' with _ | ⟨l', c'⟩ <;> rcases dp' with _ | d' <;>
    simp only [tail, ← List.append_assoc, List.append_nil] at h
  · exact ⟨List.append_cancel_right h, rfl, rfl⟩
  · exact (data_end (Y := Z' ++ ['\''] ++ ", ".toList) (by simpa using h)).elim
  · exact (line_end h).elim
  · exact (paren_end (Y := Z' ++ ['\''] ++ ", ".toList ++ linePosition l' c') (by simpa using h)).elim
  · exact (data_end (Y := Z ++ ['\''] ++ ", ".toList) (by simpa using h.symm)).elim
  · obtain ⟨h1, h2⟩ := data_inj (Y := Z ++ ['\''] ++ ", ".toList) (Y' := Z' ++ ['\''] ++ ", ".toList) (by simpa using h)
    exact ⟨List.append_cancel_right (List.append_cancel_right h1), rfl, by rw [h2]⟩
  · exact (line_data (Y := Z' ++ ['\''] ++ ", ".toList) (Y' := Z ++ ['\''] ++ ", ".toList) (l := l') (c := c') (d := d) (by simpa using h.symm)).elim
  · exact (paren_data (Y := Z' ++ ['\''] ++ ", ".toList ++ linePosition l' c') (Y' := Z ++ ['\''] ++ ", ".toList) (by simpa using h.symm)).elim
  · exact (line_end h.symm).elim
  · exact (line_data (Y := Z ++ ['\''] ++ ", ".toList) (Y' := Z' ++ ['\''] ++ ", ".toList) (l := l) (c := c) (d := d') (by simpa using h)).elim
  · obtain ⟨h1, h2, h3⟩ := line_inj h
    exact ⟨List.append_cancel_right (List.append_cancel_right h1), by rw [h2, h3], rfl⟩
  · exact (paren_line (Y := Z' ++ ['\''] ++ ", ".toList ++ linePosition l' c') (Y' := Z ++ ['\''] ++ ", ".toList) (by simpa using h.symm)).elim
  · exact (paren_end (Y := Z ++ ['\''] ++ ", ".toList ++ linePosition l c) (by simpa using h.symm)).elim
  · exact (paren_data (Y := Z ++ ['\''] ++ ", ".toList ++ linePosition l c) (Y' := Z' ++ ['\''] ++ ", ".toList) (by simpa using h)).elim
  · exact (paren_line (Y := Z ++ ['\''] ++ ", ".toList ++ linePosition l c) (Y' := Z' ++ ['\''] ++ ", ".toList) (by simpa using h)).elim
  · obtain ⟨h1, h2⟩ := paren_inj (Y := Z ++ ['\''] ++ ", ".toList ++ linePosition l c) (Y' := Z' ++ ['\''] ++ ", ".toList ++ linePosition l' c') (by simpa using h)
    obtain ⟨h3, h4, h5⟩ := line_inj h1
    exact ⟨List.append_cancel_right (List.append_cancel_right h3), by rw [h4, h5], by rw [h2]⟩

private theorem position_some (path : List PathPiece) (lp : Option (Nat × Nat)) (dp : Option Nat) :
    position ⟨some path, lp, dp⟩ = ("path '".toList ++ formatAbsJsonPath path) ++ ['\''] ++ tail lp dp := by
  rcases lp with _ | ⟨l, c⟩ <;> rcases dp with _ | d <;> simp [position, tail]

/-- without a path -/
private theorem position_none (lp : Option (Nat × Nat)) (dp : Option Nat) : position ⟨none, lp, dp⟩ = if lp = none ∧ dp = none then "<location unavailable>".toList else (tail lp dp).drop 2 := by
  rcases lp with _ | ⟨l, c⟩ <;> rcases dp with _ | d <;> simp [position, tail]

/-- C64: the text of a position says which of path, line and column, and offset are known, and contains them: it determines line, column, offset and the text of the path, whatever member names occur in the path. -/
theorem C64_position_text {p q : FullPosition} (h : position p = position q) : p.path.map formatAbsJsonPath = q.path.map formatAbsJsonPath ∧ p.linePos = q.linePos ∧ p.dataPos = q.dataPos := by
  obtain ⟨path, lp, dp⟩ := p
  obtain ⟨path', lp', dp'⟩ := q
  rcases path with _ | path <;> rcases path' with _ | path'
  · refine ⟨rfl, ?_⟩
    rw [position_none, position_none] at h
    by_cases h1 : lp = none ∧ dp = none <;> by_cases h2 : lp' = none ∧ dp' = none
    · exact ⟨h1.1.trans h2.1.symm, h1.2.trans h2.2.symm⟩
    · exfalso
      rw [if_pos h1, if_neg h2] at h
      rcases lp' with _ | ⟨l, c⟩ <;> rcases dp' with _ | d <;> simp [tail, linePosition] at h h2
    · exfalso
      rw [if_pos h2, if_neg h1] at h
      rcases lp with _ | ⟨l, c⟩ <;> rcases dp with _ | d <;> simp [tail, linePosition] at h h1
    · rw [if_neg h1, if_neg h2] at h
      have e : ∀ (lp : Option (Nat × Nat)) (dp : Option Nat), ¬ (lp = none ∧ dp = none) → tail lp dp = ", ".toList ++ (tail lp dp).drop 2 := by
        intro lp dp hn
        rcases lp with _ | ⟨l, c⟩ <;> rcases dp with _ | d <;> simp [tail] at hn ⊢
      exact (tail_inj (Z := []) (Z' := []) (congrArg (['\''] ++ ·) ((e lp dp h1).trans ((congrArg _ h).trans (e lp' dp' h2).symm)))).2
  · exfalso
    rw [position_some, position_none] at h
    rcases lp with _ | ⟨l, c⟩ <;> rcases dp with _ | d <;> simp [tail, linePosition] at h
  · exfalso
    rw [position_some, position_none] at h
    rcases lp' with _ | ⟨l, c⟩ <;> rcases dp' with _ | d <;> simp [tail, linePosition] at h
  · rw [position_some, position_some] at h
    obtain ⟨h1, h2, h3⟩ := tail_inj h
    exact ⟨by rw [Option.map_some, Option.map_some, List.append_cancel_left h1], h2, h3⟩

/-- two positions without a path, one with line and column, the other one with an offset -/
example : position ⟨none, some (1, 2), none⟩ ≠ position ⟨none, none, some 12⟩ := by decide +kernel

private theorem shown (n : Nat) : (toString n).toList = natToString n := by
  rw [natToString_eq, Nat.toString_eq_repr, Nat.toList_repr]

private theorem str (s : String) : toString s = s := rfl

private theorem lineText_eq (l c : Nat) : lineText l c = linePosition l c := by
  simp only [lineText, linePosition, String.toList_append, shown, str, List.append_assoc]

private theorem offsetText_eq (d : Nat) : offsetText d = "data pos ".toList ++ natToString d := by
  simp only [offsetText, String.toList_append, shown, str]

private theorem pieces_eq (path : List PathPiece) : formatAbsJsonPath path = '$' :: (path.map pieceText).flatten := by
  unfold formatAbsJsonPath
  rw [List.flatMap_def]
  congr 3
  funext p
  cases p with
  | arrayItem i => simp only [pieceText, String.toList_append, shown, str]; simp
  | objectMember name => rfl

/-- C64: the text of a position shows everything that is known: line and column in this order, the offset, and the pieces of the path in order, enclosed in apostrophes. -/
theorem C64_position_shows (p : FullPosition) :
    (∀ l c, p.linePos = some (l, c) → lineText l c <:+: position p) ∧
    (∀ d, p.dataPos = some d → offsetText d <:+: position p) ∧
    (∀ path, p.path = some path → '\'' :: '$' :: ((path.map pieceText).flatten ++ ['\'']) <:+: position p) := by
  obtain ⟨path, lp, dp⟩ := p
  refine ⟨?_, ?_, ?_⟩
  · intro l c h
    cases h
    rw [lineText_eq]
    cases path with
    | none => exact ⟨[], _, rfl⟩
    | some path => exact ⟨_, _, by rw [position_some]; simp only [tail, ← List.append_assoc]; rfl⟩
  · intro d h
    cases h
    rw [offsetText_eq]
    cases path with
    | none =>
      rcases lp with _ | ⟨l, c⟩
      · exact ⟨[], [], by simp [position]⟩
      · exact ⟨linePosition l c ++ " (".toList, ")".toList, by simp [position]⟩
    | some path =>
      rcases lp with _ | ⟨l, c⟩
      · exact ⟨"path '".toList ++ formatAbsJsonPath path ++ "', ".toList, [], by simp [position]⟩
      · exact ⟨"path '".toList ++ formatAbsJsonPath path ++ "', ".toList ++ linePosition l c ++ " (".toList, ")".toList, by simp [position]⟩
  · intro path' h
    cases h
    refine ⟨"path ".toList, tail lp dp, ?_⟩
    rw [position_some, pieces_eq]
    simp

/-- the text of a position with all parts -/
example : position ⟨some [.objectMember "a".toList, .arrayItem 12], some (3, 4), some 50⟩ = "path '$.a[12]', line 3, column 4 (data pos 50)".toList := by decide +kernel

/-! ## Paths -/

private def Start (x : Text) : Prop := x = [] ∨ ∃ c y, x = c :: y ∧ (c = '.' ∨ c = '[')

private theorem start_pieces (path : List PathPiece) : Start (path.map pieceText).flatten := by
  cases path with
  | nil => exact .inl rfl
  | cons p path =>
    cases p with
    | arrayItem i => exact .inr ⟨'[', natToString i ++ ([']'] ++ (path.map pieceText).flatten), by rw [List.map_cons, List.flatten_cons]; simp only [pieceText, String.toList_append, shown, str]; simp, .inr rfl⟩
    | objectMember name => exact .inr ⟨'.', name ++ (path.map pieceText).flatten, by simp [pieceText], .inl rfl⟩

private theorem name_start {a b x y : Text} (ha : '.' ∉ a ∧ '[' ∉ a) (hb : '.' ∉ b ∧ '[' ∉ b) (hx : Start x) (hy : Start y) (h : a ++ x = b ++ y) : a = b ∧ x = y := by
  have key : ∀ {c : Char} {a x y : Text}, ('.' ∉ c :: a ∧ '[' ∉ c :: a) → Start y → (c :: a) ++ x = y → False := by
    intro c a x y ha hy h
    rcases hy with rfl | ⟨d, z, rfl, hd⟩
    · cases h
    · obtain ⟨rfl, _⟩ := List.cons.inj h
      rcases hd with rfl | rfl
      · exact ha.1 (List.mem_cons_self ..)
      · exact ha.2 (List.mem_cons_self ..)
  induction a generalizing b with
  | nil =>
    cases b with
    | nil => exact ⟨rfl, h⟩
    | cons d b => exact (key hb hx h.symm).elim
  | cons c a ih =>
    cases b with
    | nil => exact (key ha hy h).elim
    | cons d b =>
      obtain ⟨h1, h2⟩ := List.cons.inj h
      obtain ⟨h3, h4⟩ := ih ⟨fun h => ha.1 (List.mem_cons_of_mem _ h), fun h => ha.2 (List.mem_cons_of_mem _ h)⟩ ⟨fun h => hb.1 (List.mem_cons_of_mem _ h), fun h => hb.2 (List.mem_cons_of_mem _ h)⟩ h2
      exact ⟨by rw [h1, h3], h4⟩

/-- C64: the text of a path determines the path, unless member names contain `.` or `[`. -/
theorem C64_path_text {p q : List PathPiece} (hp : SimplePath p) (hq : SimplePath q) (h : formatAbsJsonPath p = formatAbsJsonPath q) : p = q := by
  rw [pieces_eq, pieces_eq] at h
  replace h := (List.cons.inj h).2
  have item : ∀ i (x : Text), pieceText (.arrayItem i) ++ x = '[' :: (natToString i ++ ']' :: x) := by intro i x; simp only [pieceText, String.toList_append, shown, str]; simp
  induction p generalizing q with
  | nil =>
    cases q with
    | nil => rfl
    | cons d q =>
      cases d with
      | arrayItem i => rw [List.map_cons, List.flatten_cons, item] at h; cases h
      | objectMember name => cases h
  | cons c p ih =>
    have hp' : SimplePath p := fun n hn => hp n (List.mem_cons_of_mem _ hn)
    cases q with
    | nil =>
      cases c with
      | arrayItem i => rw [List.map_cons, List.flatten_cons, item] at h; cases h
      | objectMember name => cases h
    | cons d q =>
      have hq' : SimplePath q := fun n hn => hq n (List.mem_cons_of_mem _ hn)
      rw [List.map_cons, List.flatten_cons, List.map_cons, List.flatten_cons] at h
      cases c with
      | arrayItem i =>
        rw [item] at h
        cases d with
        | arrayItem j =>
          rw [item] at h
          obtain ⟨h1, h2⟩ := split_first (no_char (by decide)) (no_char (by decide)) (List.cons.inj h).2
          rw [number_inj h1, ih hp' hq' h2]
        | objectMember name => exact absurd (List.cons.inj h).1 (by decide)
      | objectMember name =>
        cases d with
        | arrayItem j => rw [item] at h; exact absurd (List.cons.inj h).1 (by decide)
        | objectMember name' =>
          obtain ⟨h1, h2⟩ := name_start (hp _ (List.mem_cons_self ..)) (hq _ (List.mem_cons_self ..)) (start_pieces p) (start_pieces q) (List.cons.inj h).2
          rw [h1, ih hp' hq' h2]

/-- a path which meets the hypothesis -/
example : SimplePath [.objectMember "a b".toList, .arrayItem 0] := by
  intro name h
  have : name = "a b".toList := by simpa using h
  subst this
  decide +kernel

/-- C64: without this restriction different paths have the same text. -/
theorem C64_path_ambiguous : formatAbsJsonPath [.objectMember "a".toList, .arrayItem 0, .objectMember "b".toList] = formatAbsJsonPath [.objectMember "a[0].b".toList] := by decide +kernel

/-! ## Errors -/

private def kinds : List SyntaxKind := [.commentsNotEnabled, .incompleteComment, .blockCommentNotClosed, .invalidLiteral, .trailingDataAfterLiteral, .unexpectedClosingBracket, .unexpectedComma, .missingComma,
  .trailingCommaNotEnabled, .unexpectedColon, .missingColon, .malformedNumber, .trailingDataAfterNumber, .expectingMemberNameOrObjectEnd, .malformedJson, .notEscapedControlCharacter, .unknownEscapeSequence,
  .malformedEscapeSequence, .unpairedSurrogatePairEscapeSequence, .incompleteDocument, .trailingData]

private theorem mem_kinds (a : SyntaxKind) : a ∈ kinds := by cases a <;> decide +kernel

private theorem kind_inj {a b : SyntaxKind} (h : syntaxKind a = syntaxKind b) : a = b :=
  (by decide +kernel : ∀ a ∈ kinds, ∀ b ∈ kinds, syntaxKind a = syntaxKind b → a = b) a (mem_kinds a) b (mem_kinds b) h

private theorem kind_space (a : SyntaxKind) : ' ' ∉ syntaxKind a :=
  (by decide +kernel : ∀ a ∈ kinds, ' ' ∉ syntaxKind a) a (mem_kinds a)

private def types : List ValueType := [.array, .object, .string, .number, .boolean, .null]

private theorem mem_types (a : ValueType) : a ∈ types := by cases a <;> decide +kernel

private theorem type_inj {a b : ValueType} (h : valueType a = valueType b) : a = b :=
  (by decide +kernel : ∀ a ∈ types, ∀ b ∈ types, valueType a = valueType b → a = b) a (mem_types a) b (mem_types b) h

private theorem type_space (a : ValueType) : ' ' ∉ valueType a :=
  (by decide +kernel : ∀ a ∈ types, ' ' ∉ valueType a) a (mem_types a)

private theorem sk1 (i : Nat) : structureKind (.tooShortArray i) = "TooShortArray(expected_index = ".toList ++ natToString i ++ ")".toList := rfl
private theorem sk2 (name : Text) : structureKind (.missingObjectMember name) = "MissingObjectMember(\"".toList ++ name ++ "\")".toList := rfl
private theorem sk3 : structureKind .fewerElementsThanExpected = "FewerElementsThanExpected".toList := rfl
private theorem sk4 : structureKind .moreElementsThanExpected = "MoreElementsThanExpected".toList := rfl

private theorem re1 (io : IoErr → Text) (k : SyntaxKind) (l : Position) : readerError io (.syntax k l) = "syntax error: JSON syntax error ".toList ++ (syntaxKind k ++ ' ' :: ("at ".toList ++ position (full l))) := by
  show "syntax error: ".toList ++ ("JSON syntax error ".toList ++ syntaxKind k ++ " at ".toList ++ position (full l)) = _
  simp
private theorem re2 (io : IoErr → Text) (e a : ValueType) (l : Position) : readerError io (.unexpectedValueType e a l) =
    "expected JSON value type ".toList ++ (valueType e ++ ' ' :: ("but got ".toList ++ (valueType a ++ ' ' :: ("at ".toList ++ position (full l))))) := by
  show "expected JSON value type ".toList ++ valueType e ++ " but got ".toList ++ valueType a ++ " at ".toList ++ position (full l) = _
  simp
private theorem re3 (io : IoErr → Text) (k : StructureKind) (l : Position) : readerError io (.unexpectedStructure k l) = "unexpected JSON structure ".toList ++ (structureKind k ++ ' ' :: ("at ".toList ++ position (full l))) := by
  show "unexpected JSON structure ".toList ++ structureKind k ++ " at ".toList ++ position (full l) = _
  simp
private theorem re4 (io : IoErr → Text) (m : Nat) (l : Position) : readerError io (.maxNestingDepthExceeded m l) = "maximum nesting depth ".toList ++ (natToString m ++ ' ' :: ("exceeded at ".toList ++ position (full l))) := by
  show "maximum nesting depth ".toList ++ natToString m ++ " exceeded at ".toList ++ position (full l) = _
  simp
private theorem re5 (io : IoErr → Text) (n : Text) (l : Position) : readerError io (.unsupportedNumberValue n l) = "unsupported number value '".toList ++ (n ++ '\'' :: (" at ".toList ++ position (full l))) := by
  show "unsupported number value '".toList ++ n ++ "' at ".toList ++ position (full l) = _
  simp
private theorem re6 (io : IoErr → Text) (e : IoErr) (l : Position) : readerError io (.io e l) = "IO error '".toList ++ io e ++ "' at (roughly) ".toList ++ position (full l) := rfl

private theorem structure_inj {a b : StructureKind} {x y : Text} (ha : SimpleCause (.unexpectedStructure a)) (hb : SimpleCause (.unexpectedStructure b))
    (h : structureKind a ++ (' ' :: x) = structureKind b ++ (' ' :: y)) : a = b ∧ x = y := by
  cases a <;> cases b <;> simp [sk1, sk2, sk3, sk4] at h ⊢
  · obtain ⟨h1, h2⟩ := split_first (no_char (by decide)) (no_char (by decide)) h
    exact ⟨number_inj h1, (List.cons.inj h2).2⟩
  · obtain ⟨h1, h2⟩ := split_first ha hb h
    exact ⟨h1, (List.cons.inj (List.cons.inj h2).2).2⟩
  · exact h
  · exact h

/-- C64: the text of an error ends with the text of its location. -/
theorem C64_message_location {io : IoErr → Text} {e : RErr} {l : Position} (h : location e = some l) : position (full l) <:+ readerError io e := by
  cases e <;> simp only [location, Option.some.injEq, reduceCtorEq] at h <;> subst h <;> simp only [re1, re2, re3, re4, re5, re6]
  · rename_i k _; exact ⟨"syntax error: JSON syntax error ".toList ++ (syntaxKind k ++ ' ' :: "at ".toList), by simp⟩
  · rename_i e a _; exact ⟨"expected JSON value type ".toList ++ (valueType e ++ ' ' :: ("but got ".toList ++ (valueType a ++ ' ' :: "at ".toList))), by simp⟩
  · rename_i k _; exact ⟨"unexpected JSON structure ".toList ++ (structureKind k ++ ' ' :: "at ".toList), by simp⟩
  · rename_i m _; exact ⟨"maximum nesting depth ".toList ++ (natToString m ++ ' ' :: "exceeded at ".toList), by simp⟩
  · rename_i n _; exact ⟨"unsupported number value '".toList ++ (n ++ '\'' :: " at ".toList), by simp⟩
  · exact List.suffix_append ..

private theorem kind_text (k : SyntaxKind) : (kindNames.getD k.ctorIdx "").toList = syntaxKind k :=
  (by decide +kernel : ∀ a ∈ kinds, (kindNames.getD a.ctorIdx "").toList = syntaxKind a) k (mem_kinds k)

private theorem type_text (k : ValueType) : (typeNames.getD k.ctorIdx "").toList = valueType k :=
  (by decide +kernel : ∀ a ∈ types, (typeNames.getD a.ctorIdx "").toList = valueType a) k (mem_types k)

private theorem ct1 (k : SyntaxKind) : causeText (.syntax k) = (kindNames.getD k.ctorIdx "").toList := rfl
private theorem ct2 (e a : ValueType) : causeText (.unexpectedValueType e a) = "expected JSON value type ".toList ++ (typeNames.getD e.ctorIdx "").toList ++ " but got ".toList ++ (typeNames.getD a.ctorIdx "").toList := rfl
private theorem ct3 (k : StructureKind) : causeText (.unexpectedStructure k) = structureText k := rfl
private theorem ct4 (m : Nat) : causeText (.maxNestingDepthExceeded m) = s!"maximum nesting depth {m} exceeded".toList := rfl
private theorem ct5 (n : Text) : causeText (.unsupportedNumberValue n) = ['\''] ++ n ++ ['\''] := rfl
private theorem st1 (i : Nat) : structureText (.tooShortArray i) = s!"TooShortArray(expected_index = {i})".toList := rfl
private theorem st2 (name : Text) : structureText (.missingObjectMember name) = "MissingObjectMember(".toList ++ ['"'] ++ name ++ ['"'] ++ ")".toList := rfl
private theorem st3 : structureText .fewerElementsThanExpected = "FewerElementsThanExpected".toList := rfl
private theorem st4 : structureText .moreElementsThanExpected = "MoreElementsThanExpected".toList := rfl

/-- C64: the text of an error shows its cause with all details, and behind it its location. -/
theorem C64_message_shows {io : IoErr → Text} {e : RErr} {c : Cause} {l : Position} (h : parts e = some (c, l)) :
    ∃ a, readerError io e = a ++ causeText c ++ " at ".toList ++ position (full l) := by
  cases e <;> simp only [parts, Option.some.injEq, Prod.mk.injEq, reduceCtorEq] at h <;> obtain ⟨rfl, rfl⟩ := h
  · exact ⟨"syntax error: JSON syntax error ".toList, by rw [re1, ct1, kind_text]; simp⟩
  · exact ⟨[], by rw [re2, ct2, type_text, type_text]; simp⟩
  · rename_i k _
    refine ⟨"unexpected JSON structure ".toList, ?_⟩
    rw [re3, ct3]
    cases k with
    | tooShortArray i => rw [st1, sk1]; simp only [String.toList_append, shown, str]; simp
    | missingObjectMember name => rw [st2, sk2]; simp
    | fewerElementsThanExpected => rw [st3, sk3]; simp
    | moreElementsThanExpected => rw [st4, sk4]; simp
  · exact ⟨[], by rw [re4, ct4]; simp only [String.toList_append, shown, str]; simp⟩
  · exact ⟨"unsupported number value ".toList, by rw [re5, ct5]; simp⟩

/-- the expected type is shown in front of the actual one -/
example : parts (.unexpectedValueType .string .null ⟨some [.arrayItem 1], 2, 3, 9⟩) = some (.unexpectedValueType .string .null, ⟨some [.arrayItem 1], 2, 3, 9⟩) ∧
    String.ofList (causeText (.unexpectedValueType .string .null)) = "expected JSON value type String but got Null" ∧
    String.ofList (readerError (fun _ => []) (.unexpectedValueType .string .null ⟨some [.arrayItem 1], 2, 3, 9⟩)) =
      "expected JSON value type String but got Null at path '$[1]', line 2, column 3 (data pos 9)" := ⟨rfl, by decide +kernel, by decide +kernel⟩

/-- C64: the text of an error tells the kind of the error with its details, line, column, offset and text of the path. -/
theorem C64_message {io : IoErr → Text} {e e' : RErr} {c c' : Cause} {l l' : Position} (he : parts e = some (c, l)) (he' : parts e' = some (c', l'))
    (hc : SimpleCause c) (hc' : SimpleCause c') (h : readerError io e = readerError io e') :
    c = c' ∧ l.line = l'.line ∧ l.column = l'.column ∧ l.dataPos = l'.dataPos ∧ l.path.map formatAbsJsonPath = l'.path.map formatAbsJsonPath := by
  have key : c = c' ∧ position (full l) = position (full l') := by
    cases e <;> simp only [parts, Option.some.injEq, Prod.mk.injEq, reduceCtorEq] at he <;> obtain ⟨rfl, rfl⟩ := he <;>
      cases e' <;> simp only [parts, Option.some.injEq, Prod.mk.injEq, reduceCtorEq] at he' <;> obtain ⟨rfl, rfl⟩ := he' <;> simp only [re1, re2, re3, re4, re5] at h
    case syntax.syntax =>
      obtain ⟨h1, h2⟩ := split_first (kind_space _) (kind_space _) (List.append_cancel_left h)
      exact ⟨by rw [kind_inj h1], List.append_cancel_left h2⟩
    case unexpectedValueType.unexpectedValueType =>
      obtain ⟨h1, h2⟩ := split_first (type_space _) (type_space _) (List.append_cancel_left h)
      obtain ⟨h3, h4⟩ := split_first (type_space _) (type_space _) (List.append_cancel_left h2)
      exact ⟨by rw [type_inj h1, type_inj h3], List.append_cancel_left h4⟩
    case unexpectedStructure.unexpectedStructure =>
      obtain ⟨h1, h2⟩ := structure_inj hc hc' (List.append_cancel_left h)
      exact ⟨by rw [h1], List.append_cancel_left h2⟩
    case maxNestingDepthExceeded.maxNestingDepthExceeded =>
      obtain ⟨h1, h2⟩ := split_first (no_char (by decide)) (no_char (by decide)) (List.append_cancel_left h)
      exact ⟨by rw [number_inj h1], List.append_cancel_left h2⟩
    case unsupportedNumberValue.unsupportedNumberValue =>
      obtain ⟨h1, h2⟩ := split_first hc hc' (List.append_cancel_left h)
      exact ⟨by rw [h1], List.append_cancel_left h2⟩
    all_goals (exfalso; simp at h)
  obtain ⟨h1, h2⟩ := key
  obtain ⟨h3, h4, h5⟩ := C64_position_text h2
  exact ⟨h1, (Prod.mk.inj (Option.some.inj h4)).1, (Prod.mk.inj (Option.some.inj h4)).2, Option.some.inj h5, h3⟩

/-- an error which meets the hypotheses -/
example : parts (.unexpectedStructure (.missingObjectMember "a".toList) ⟨some [.arrayItem 1], 2, 3, 10⟩) = some (.unexpectedStructure (.missingObjectMember "a".toList), ⟨some [.arrayItem 1], 2, 3, 10⟩) ∧
    SimpleCause (.unexpectedStructure (.missingObjectMember "a".toList)) ∧
    readerError (fun _ => []) (.unexpectedStructure (.missingObjectMember "a".toList) ⟨some [.arrayItem 1], 2, 3, 10⟩) =
      "unexpected JSON structure MissingObjectMember(\"a\") at path '$[1]', line 2, column 3 (data pos 10)".toList :=
  ⟨rfl, (by decide +kernel : '"' ∉ "a".toList), by decide +kernel⟩

end Verif.Props
