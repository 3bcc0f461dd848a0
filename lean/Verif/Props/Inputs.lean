import Verif.Proofs.Term
import Verif.Props.Calls
/-!
# Properties C13 and C30: comparing two readers
-/

namespace Verif.Props
open Reader Sim

variable {N : Nat} {st : Settings} {bytes more : Bytes} {e : Option Nat}

theorem same_eq {X : RErr → Prop} {l1 l2 : List (Except RErr Out)} (h : Same X l1 l2) (hX : ∀ e, .error e ∈ l1 → ¬ X e) : l1 = l2 := by
  induction h with
  | nil => rfl
  | cons r _ ih => rw [ih fun e he => hX e (List.mem_cons_of_mem _ he)]
  | exempt e h => exact absurd h (hX e (List.mem_cons_self ..))

/-- C13: calls which are all successful give the same results when comments, trailing commas or multiple top-level values are additionally allowed, or
the nesting limit is raised or the number restriction is switched off. -/
theorem C13_lenient_same_results (hN : 0 < N) (a b : Settings) (sched : List ReadEvent) (ops : List Op)
    (hc : a.allowComments = true → b.allowComments = true) (ht : a.allowTrailingComma = true → b.allowTrailingComma = true)
    (hm : a.allowMultipleTopLevel = true → b.allowMultipleTopLevel = true)
    (hd : ∀ m, b.maxNestingDepth = some m → ∃ n, a.maxNestingDepth = some n ∧ n ≤ m)
    (hr : b.restrictNumberValues = true → a.restrictNumberValues = true) (hp : a.trackPath = b.trackPath)
    (hok : ∀ e, Except.error e ∉ runReader N a sched ops) :
    runReader N b sched ops = runReader N a sched ops := by
  rw [runReader_eq_runAbs hN] at hok
  rw [runReader_eq_runAbs hN, runReader_eq_runAbs hN]
  exact (same_eq (runAbs_lenient ⟨hc, ht, hm, hd, hr⟩ hp _ _ ops) fun e he => absurd he (hok e)).symm

/-- more generally, the only errors which can go away are those which the settings are about: comments, trailing commas, the nesting limit, unsupported
numbers, calls behind the top-level value (panic), and `IncompleteDocument` -/
theorem C13_lenient_same_errors (hN : 0 < N) (a b : Settings) (sched : List ReadEvent) (ops : List Op)
    (hc : a.allowComments = true → b.allowComments = true) (ht : a.allowTrailingComma = true → b.allowTrailingComma = true)
    (hm : a.allowMultipleTopLevel = true → b.allowMultipleTopLevel = true)
    (hd : ∀ m, b.maxNestingDepth = some m → ∃ n, a.maxNestingDepth = some n ∧ n ≤ m)
    (hr : b.restrictNumberValues = true → a.restrictNumberValues = true) (hp : a.trackPath = b.trackPath)
    (hok : ∀ e, Except.error e ∈ runReader N a sched ops → match e with
      | .syntax k _ => k ≠ .commentsNotEnabled ∧ k ≠ .trailingCommaNotEnabled ∧ k ≠ .incompleteDocument
      | .maxNestingDepthExceeded _ _ => False
      | .unsupportedNumberValue _ _ => False
      | .panic _ => False
      | _ => True) :
    runReader N b sched ops = runReader N a sched ops := by
  rw [runReader_eq_runAbs hN] at hok
  rw [runReader_eq_runAbs hN, runReader_eq_runAbs hN]
  refine (same_eq (runAbs_lenient ⟨hc, ht, hm, hd, hr⟩ hp _ _ ops) fun e he hx => ?_).symm
  have := hok e he
  cases e with
  | «syntax» k => cases k <;> simp_all [AbsSrc.LX]
  | _ => simp_all [AbsSrc.LX]

/-- reading `[1]` strictly, and with all extensions; a trailing comma makes a difference -/
example :
    let strict := { Settings.default with trackPath := true }
    let lenient : Settings := ⟨true, true, true, true, none, false⟩
    let ops := [Op.beginArray, .nextNumberAsStr, .hasNext, .endArray, .consumeTrailingWhitespace]
    runReader 4 strict [.data [0x5B, 0x31, 0x5D]] ops = [.ok .unit, .ok (.text ['1']), .ok (.bool false), .ok .unit, .ok .unit] ∧
    runReader 4 strict [.data [0x5B, 0x31, 0x2C, 0x5D]] ops = [.ok .unit, .ok (.text ['1']), .error (.syntax .trailingCommaNotEnabled ⟨some [.arrayItem 1], 0, 2, 2⟩)] ∧
    runReader 4 lenient [.data [0x5B, 0x31, 0x2C, 0x5D]] ops = [.ok .unit, .ok (.text ['1']), .ok (.bool false), .ok .unit, .ok .unit] := by
  decide +kernel

/-- C30: let `bytes` be a beginning of the input. If the reader, when only `bytes` have arrived and further reads from the underlying reader fail with an error (code `k`),
does not run into this error, then the results do not depend on what follows behind `bytes`: they are the same for every continuation, however it ends and arrives.
How long this beginning is says `C30_one_byte_lookahead`. -/
theorem C30_later_bytes_irrelevant (hN : 0 < N) (st : Settings) (sched1 sched2 : List ReadEvent) (k : Nat) (hd1 : Delivers sched1 bytes (some k))
    (hd2 : Delivers sched2 (bytes ++ more) e) (ops : List Op)
    (hk : ∀ l, Except.error (.io (.source k) l) ∉ runReader N st sched1 ops) :
    runReader N st sched2 ops = runReader N st sched1 ops := by
  have hf := C29_loops_end hN st sched1 ops
  simp only [runReader_abs hN hd1, runReader_abs hN hd2] at *
  refine (same_eq (runAbs_trunc st bytes more k e ops) ?_).symm
  rintro e' he (⟨l, rfl⟩ | ⟨_, rfl⟩)
  · exact hk l he
  · exact hf he

/-- the number in `[12,` needs the comma but nothing behind it -/
example : runReader 4 Settings.default [.data [0x5B, 0x31, 0x32, 0x2C], .error 7] [.beginArray, .nextNumberAsStr] = [.ok .unit, .ok (.text ['1', '2'])] ∧
    runReader 4 Settings.default [.data [0x5B, 0x31, 0x32], .error 7] [.beginArray, .nextNumberAsStr] =
      [.ok .unit, .error (.io (.source 7) ⟨some [.arrayItem 0], 0, 1, 1⟩)] ∧
    Delivers [.data [0x5B, 0x31, 0x32, 0x2C], .error 7] [0x5B, 0x31, 0x32, 0x2C] (some 7) ∧
    Delivers [.data [0x5B, 0x31, 0x32], .data [0x2C, 0x33]] ([0x5B, 0x31, 0x32, 0x2C] ++ [0x33]) none :=
  ⟨by decide +kernel, by decide +kernel, .data _ _ (.failed _ _), .data _ _ (.data _ _ .done)⟩

end Verif.Props
