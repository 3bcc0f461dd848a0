import Verif.Spec.Counters
import Verif.Props.ErrorLocation
import Verif.Props.Tokens
/-!
# Counters are bounded by the size of the input
-/

namespace Verif.Props
open Reader Json Abs Counters ErrorLocation Position Sim Usage

variable {N : Nat} {st : Settings} {bytes : Bytes} {e : Option Nat} {sched : List ReadEvent}

private theorem lineBreaks_le : ∀ n (bs : Bytes), bs.length ≤ n → lineBreaks bs ≤ bs.length := by
  intro n
  induction n with
  | zero =>
    intro bs h
    cases bs with
    | nil => exact Nat.le_refl _
    | cons => cases h
  | succ n ih =>
    intro bs h
    unfold lineBreaks
    split <;> try simp only [List.length_cons] at h ⊢
    · have := ih ‹_› (by omega); omega
    · have := ih ‹_› (by omega); omega
    · have := ih ‹_› (by omega); omega
    · have := ih ‹_› (by omega); omega
    · exact Nat.zero_le _

private theorem column_le (bs : Bytes) : charCount (lastLine bs) ≤ bs.length := by
  refine Nat.le_trans List.countP_le_length ?_
  unfold lastLine
  rw [List.length_reverse, ← List.length_reverse (as := bs)]
  exact (List.takeWhile_sublist _).length_le

private theorem cst_pos {cfg : Cfg} {v : Cst} (h : v.Ok cfg) : 1 ≤ v.bytes.length := by
  cases v with
  | null => decide
  | bool b => cases b <;> decide
  | num bs => exact List.length_pos_iff.2 (isNumber_ne_nil h)
  | str s => simp [Cst.bytes, Str.bytes]
  | arr is => simp [Cst.bytes]
  | obj ms => simp [Cst.bytes]

private theorem items_rest {cfg : Cfg} : ∀ {d : List (Sep × Cst)}, ItemsOk cfg false d → 2 * d.length ≤ (d.flatMap itemBytes).length := by
  intro d
  induction d with
  | nil => intro _; exact Nat.le_refl _
  | cons x d ih =>
    rintro ⟨h1, h2, h3⟩
    have := ih h3
    have := cst_pos h2
    obtain ⟨s, v⟩ := x
    cases s with
    | plain w => cases h1.1
    | comma w1 w2 =>
      simp only [List.flatMap_cons, itemBytes, Sep.bytes, List.length_append, List.length_cons] at *
      omega

private theorem items_le {cfg : Cfg} {d : List (Sep × Cst)} (h : ItemsOk cfg true d) : 2 * d.length ≤ (d.flatMap itemBytes).length + 1 := by
  cases d with
  | nil => exact Nat.zero_le _
  | cons x d =>
    obtain ⟨h1, h2, h3⟩ := h
    have := items_rest h3
    have := cst_pos h2
    simp only [List.flatMap_cons, itemBytes, List.length_append, List.length_cons] at *
    omega

private theorem path_le : ∀ {c : Ctx}, c.Ok st → (c.path.map needed).sum ≤ c.bytes.length := by
  intro c
  induction c with
  | top d => intro _; exact Nat.zero_le _
  | arr up l d ih =>
    rintro ⟨h1, _, h3⟩
    have := ih h1
    have := items_le h3
    simp only [Ctx.path, Ctx.bytes, needed, List.map_cons, List.sum_cons, List.length_append, List.length_cons]
    omega
  | obj up l d ih =>
    rintro ⟨h1, _⟩
    have := ih h1
    simp only [Ctx.path, Ctx.bytes, needed, List.map_cons, List.sum_cons, List.length_append, List.length_cons]
    omega
  | val up l d s n ih =>
    rintro ⟨h1, _⟩
    have := ih h1
    simp only [Ctx.path, Ctx.bytes, needed, List.map_cons, List.sum_cons, List.length_append, List.length_cons]
    omega

/-- C63: after any calls the counters of the position are bounded by the input: the offset by the number of bytes of the input, line and column by the offset, and all indexes of
the path together (and its length) by the offset. So none of the counters can overflow for an input of less than 2^32 bytes (2^33 for the indexes). -/
theorem C63_position (hN : 0 < N) (st : Settings) (hd : Delivers sched bytes e) (pre : List Op) (m : Mode) (includePath : Bool)
    (hm : Mode.init.after pre (runReader N st sched pre) = some m)
    (hn : ∀ t l, Except.error (.unsupportedNumberValue t l) ∉ runReader N st sched pre) :
    ∃ P, runReader N st sched (pre ++ [.currentPosition includePath]) = runReader N st sched pre ++ [.ok (.position P)] ∧ Bounded bytes P := by
  obtain ⟨c, x, y, h1, h2, _, _, h3⟩ := C19_C20_position hN st hd pre m includePath hm hn
  refine ⟨_, h3, ⟨?_, lineBreaks_le _ _ (Nat.le_refl _), column_le _, ?_⟩⟩
  · rw [h2]
    simp only [List.length_append]
    omega
  · intro p hp
    have hp : p = c.path.reverse := by
      revert hp
      dsimp only
      split
      · rintro ⟨⟩; rfl
      · rintro ⟨⟩
    subst hp
    have := path_le h1
    rw [List.map_reverse, List.sum_reverse]
    simp only [List.length_append]
    omega

/-- C63: the same for the locations of errors (of calls which read at most one token; the others consist of such calls). -/
theorem C63_error (hN : 0 < N) (st : Settings) (hd : Delivers sched bytes e) (pre : List Op) (m : Mode)
    (hm : Mode.init.after pre (runReader N st sched pre) = some m)
    (hn : ∀ t l, Except.error (.unsupportedNumberValue t l) ∉ runReader N st sched pre) {op : Op} {er : RErr} {l : Position}
    (herr : runReader N st sched (pre ++ [op]) = runReader N st sched pre ++ [.error er]) (hone : oneToken op = true)
    (hio : ∀ k l, er ≠ .io (.source k) l) (hop : op = .consumeTrailingWhitespace → st.allowMultipleTopLevel = false) (hl : location er = some l) : Bounded bytes l := by
  obtain ⟨P, h1, h2⟩ := C63_position hN st hd pre m true hm hn
  obtain ⟨h3, ⟨h4, h5, h6⟩, h7, _⟩ := C62_error_location hN hd (after_length hm) (after_length hm) hn h1 herr hio hop hl
  have hle : (bytes.take l.dataPos).length ≤ l.dataPos := by rw [List.length_take]; omega
  refine ⟨h4, ?_, ?_, fun p hp => ?_⟩
  · rw [h5]; exact Nat.le_trans (lineBreaks_le _ _ (Nat.le_refl _)) hle
  · rw [h6]; exact Nat.le_trans (column_le _) hle
  · exact Nat.le_trans (h2.path p (by rw [← h7 hone]; exact hp)) h3

/-- in `[1,[2,3` the path is `$[1][2]`, for which at least 6 bytes are needed, and 7 bytes have been consumed -/
example : runReader 4 .default [.data "[1,[2,3,".toUTF8.toList] [.beginArray, .nextNumberAsStr, .beginArray, .nextNumberAsStr, .nextNumberAsStr, .currentPosition true] =
      [.ok .unit, .ok (.text ['1']), .ok .unit, .ok (.text ['2']), .ok (.text ['3']), .ok (.position ⟨some [.arrayItem 1, .arrayItem 2], 0, 7, 7⟩)] ∧
    ([PathPiece.arrayItem 1, .arrayItem 2].map needed).sum = 6 ∧
    Mode.init.after [.beginArray, .nextNumberAsStr, .beginArray, .nextNumberAsStr, .nextNumberAsStr] (runReader 4 .default [.data "[1,[2,3,".toUTF8.toList] [.beginArray, .nextNumberAsStr, .beginArray, .nextNumberAsStr, .nextNumberAsStr]) =
      some ⟨[.array, .array], false, false⟩ := by
  decide +kernel

end Verif.Props
