import Verif.Proofs.Abs.Doc
import Verif.Props.Chunking
/-!
# Reading complete documents

`exec N settings sched p` is the result of the program `p` which uses a new reader with buffer size `N`, where the underlying `Read` behaves as
described by `sched`. `readDoc` reads a value with `peek`, `begin_array`, `has_next`, `next_string` … and then calls
`consume_trailing_whitespace`. Its argument bounds the number of steps; the results below hold for any sufficiently large bound.
-/

namespace Verif.Props
open Reader Json Abs Prog

variable {N : Nat} {st : Settings} {sched : List ReadEvent} {bytes : Bytes}

theorem exec_abs {α : Type} (hN : 0 < N) {e : Option Nat} (hd : Delivers sched bytes e) (p : Prog α) : exec N st sched p = execAbs st bytes e p := by
  rw [exec_eq hN, (delivers_sched hd).1, (delivers_sched hd).2]

/-- C11 and C12: reading a document succeeds with the value `v` if and only if the input is a document of the grammar (with the enabled extensions)
which denotes `v`, its nesting depth is within the limit and, if the number restriction is enabled, all numbers are supported. -/
theorem C11_C12_read_document (hN : 0 < N) (st : Settings) (hd : Delivers sched bytes none) {n : Nat} (hn : 2 * bytes.length < n) (v : JVal) :
    exec N st sched (readDoc n) = .ok v ↔
      ∃ d : Doc, d.Ok ⟨st.allowComments, st.allowTrailingComma⟩ ∧ d.bytes = bytes ∧ d.value.value = v ∧ d.value.Within st.maxNestingDepth st.restrictNumberValues := by
  rw [exec_abs hN hd]
  exact readDoc_iff hn

/-- `[1] ` is read, `[1]x` is not -/
example : exec 4 Settings.default [.data [0x5B, 0x31], .interrupted, .data [0x5D, 0x20]] (readDoc 9) = .ok (.arr [.num ['1']]) ∧
    (match exec 4 Settings.default [.data [0x5B, 0x31, 0x5D, 0x78]] (readDoc 9) with | .error (.syntax .trailingData _) => true | _ => false) = true := by
  decide +kernel

/-- C11 and C12 without limits: the grammar is decided by the reader -/
theorem C12_accepts_every_document (hN : 0 < N) (st : Settings) (hdepth : st.maxNestingDepth = none) (hnum : st.restrictNumberValues = false)
    (hd : Delivers sched bytes none) {n : Nat} (hn : 2 * bytes.length < n) (v : JVal) :
    exec N st sched (readDoc n) = .ok v ↔ IsDoc ⟨st.allowComments, st.allowTrailingComma⟩ bytes v := by
  rw [C11_C12_read_document hN st hd hn]
  unfold IsDoc
  refine exists_congr fun d => and_congr_right fun _ => and_congr_right fun _ => ⟨fun h => h.1, fun h => ⟨h, ?_, ?_⟩⟩
  · rw [hdepth]; exact nofun
  · rw [hnum]
    suffices h : (∀ v : Cst, v.Nums fun bs => ¬ (false = true ∧ UnsupportedNumber bs)) from h _
    intro v
    refine Cst.rec (motive_1 := fun v => v.Nums fun bs => ¬ (false = true ∧ UnsupportedNumber bs)) (motive_2 := fun v => v.Nums fun bs => ¬ (false = true ∧ UnsupportedNumber bs))
      (motive_3 := fun v => v.Nums fun bs => ¬ (false = true ∧ UnsupportedNumber bs)) ?_ ?_ ?_ ?_ ?_ ?_ ?_ ?_ ?_ ?_ v
    · trivial
    · intro _; trivial
    · exact fun _ h => Bool.noConfusion h.1
    · intro _; trivial
    · exact fun _ h => h
    · exact fun _ h => h
    · intro _; trivial
    · exact fun _ _ _ h1 h2 => ⟨h1, h2⟩
    · intro _; trivial
    · exact fun _ _ _ _ _ _ h1 h2 => ⟨h1, h2⟩

/-- settings without limits -/
example : ∃ st : Settings, st.maxNestingDepth = none ∧ st.restrictNumberValues = false ∧
    exec 4 st [.data [0x31, 0x65, 0x39, 0x39, 0x39]] (readDoc 11) = .ok (.num ['1', 'e', '9', '9', '9']) :=
  ⟨{ Settings.default with maxNestingDepth := none, restrictNumberValues := false }, rfl, rfl, by decide +kernel⟩

/-- C13, second part: with the extensions disabled the accepted documents are exactly those of RFC 8259 -/
theorem C13_strict_is_rfc (hN : 0 < N) (st : Settings) (hc : st.allowComments = false) (ht : st.allowTrailingComma = false) (hdepth : st.maxNestingDepth = none)
    (hnum : st.restrictNumberValues = false) (hd : Delivers sched bytes none) {n : Nat} (hn : 2 * bytes.length < n) (v : JVal) :
    exec N st sched (readDoc n) = .ok v ↔ IsDoc .rfc bytes v := by
  rw [C12_accepts_every_document hN st hdepth hnum hd hn, hc, ht]
  rfl

/-- `[1,]` is not accepted -/
example : (match exec 4 { Settings.default with maxNestingDepth := none, restrictNumberValues := false } [.data [0x5B, 0x31, 0x2C, 0x5D]] (readDoc 9) with | .error (.syntax .trailingCommaNotEnabled _) => true | _ => false) = true := by
  decide +kernel

/-- The grammar is unambiguous: a document denotes one value -/
theorem C11_unique_value (cfg : Cfg) (v w : JVal) (hv : IsDoc cfg bytes v) (hw : IsDoc cfg bytes w) : v = w := by
  have hd : ∀ bs : Bytes, Delivers (bs.map fun b => .data [b]) bs none := by
    intro bs
    induction bs with
    | nil => exact .done
    | cons b bs ih => exact .data b [] ih
  have h := fun v => C12_accepts_every_document (N := 1) (by decide) ⟨cfg.comments, cfg.trailingComma, false, false, none, false⟩ rfl rfl (hd bytes) (Nat.lt_succ_self _) v
  have h1 := (h v).2 hv
  rw [(h w).2 hw] at h1
  injection h1 with h1
  exact h1.symm

example : IsDoc .rfc [0x31] (.num ['1']) := ⟨⟨[], .num [0x31], ⟨[], none⟩⟩, ⟨by simp [Ws.Ok], ⟨⟨false, [0x31], none, none⟩, ⟨.inr ⟨0x31, [], rfl, rfl, by decide, by simp⟩, nofun, nofun⟩, rfl⟩, by simp [Ws.Ok], nofun⟩, rfl, rfl⟩

/-- C27: with `allow_multiple_top_level`, reading values while `has_next` returns true and then calling `consume_trailing_whitespace` succeeds with the
values `vs` if and only if the input is a sequence of at least one value (whitespace is needed only behind numbers and literals) which denote `vs`. -/
theorem C27_multiple_top_level (hN : 0 < N) (st : Settings) (hm : st.allowMultipleTopLevel = true) (hd : Delivers sched bytes none) {n : Nat}
    (hn : 2 * bytes.length + 1 < n) (vs : List JVal) :
    exec N st sched (readAll n) = .ok vs ↔ vs ≠ [] ∧
      ∃ t : Tops, t.Ok ⟨st.allowComments, st.allowTrailingComma⟩ false ∧ t.bytes = bytes ∧ t.values = vs ∧ t.Within st.maxNestingDepth st.restrictNumberValues := by
  rw [exec_abs hN hd]
  exact readAll_iff hm hn

/-- `1[]"" ` are three values, `1x` is malformed -/
example : exec 4 { Settings.default with allowMultipleTopLevel := true } [.data [0x31, 0x20, 0x5B, 0x5D, 0x22, 0x22, 0x20]] (readAll 16) = .ok [.num ['1'], .arr [], .str []] ∧
    (match exec 4 { Settings.default with allowMultipleTopLevel := true } [.data [0x31, 0x78]] (readAll 6) with | .error (.syntax _ _) => true | _ => false) = true := by
  decide +kernel

end Verif.Props
