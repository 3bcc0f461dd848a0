import Verif.Props.ErrorKinds
import Verif.Proofs.Kinds.Transfer
/-!
# C71 for `transfer_to`

Section "Errors" of `transfer_to`, reader/mod.rs 1687–1714.
-/

namespace Verif.Props
open Reader Writer Transfer ErrorKinds

/-- C71: each error of the reader which `transfer_to` reports is one of those of `ErrorKinds.transfers`, whatever the writer and its underlying `Write` do. In particular there are
no errors about the types of values, although `transfer_to` uses methods which report them. -/
theorem C71_transfer {N M : Nat} (hN : 0 < N) {st : Settings} {sched : List ReadEvent} {pre post : List Op} {wst : WSettings} {sink sk : Sink} {wpre wpost : List WOp} {t : TransferRun} {e : RErr}
    (h : runTransfer N st sched pre post M wst sink wpre wpost = some (.ok t, sk)) (he : t.transfer = some (.error (.reader e))) : Allowed st transfers e := by
  have hw : ∀ s, Abs.Steps pre (new (⟨BufSrc.schedBytes sched, BufSrc.schedError sched, []⟩ : AbsSrc) st) (runReader N st sched pre) s → ∀ c x,
      (transferTo.run (s, c)).Walk True (fun r _ => Kinds.CpPost st transfers (fun _ s' => s'.settings = st) r) x :=
    fun s hs c x => Kinds.walk_of_all (Kinds.transferTo_cp rfl rfl rfl rfl rfl rfl rfl (Kinds.ws_steps hs Kinds.ws_new) c)
  obtain ⟨s, -, ⟨h1, -⟩ | ⟨q, s', c, x, h1, -, h2⟩⟩ := run_walk hN h hw
  · rw [h1] at he; cases he
  · rw [h1] at he
    cases he
    exact h2.1

/-- an unsupported number inside of a transferred array: `[1,1e999]`, and a missing item: `[]` -/
example : (match runTransfer 3 { Settings.default with trackPath := false } [.data [0x5B, 0x31, 0x2C, 0x31, 0x65, 0x39, 0x39, 0x39, 0x5D]] [] [] 1 .default ⟨[], [], []⟩ [] [] with
      | some (.ok t, _) => t.transfer
      | _ => none) = some (.error (.reader (.unsupportedNumberValue ['1', 'e', '9', '9', '9'] ⟨none, 0, 3, 3⟩))) ∧
    (match runTransfer 3 { Settings.default with trackPath := false } [.data [0x5B, 0x5D]] [.beginArray] [] 1 .default ⟨[], [], []⟩ [] [] with
      | some (.ok t, _) => t.transfer
      | _ => none) = some (.error (.reader (.unexpectedStructure .fewerElementsThanExpected ⟨none, 0, 1, 1⟩))) := by decide +kernel

end Verif.Props
