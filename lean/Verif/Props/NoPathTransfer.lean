import Verif.Proofs.NoPath.Transfer
import Verif.Props.TransferAny
/-!
# C70: Path tracking and `transfer_to`
-/

namespace Verif.Props
open Reader Writer Transfer

/-- The second run gives the same as the first one except for JSON paths: it is possible if and only if the first one is, the same bytes arrive at the underlying
`Write`, and all results are the same up to the paths. If the writer failed during `transfer_to`, nothing is said about later calls of the reader (it may be in the
middle of a string). -/
def SameUpToPaths : Option (Except WPanic TransferRun × Sink) → Option (Except WPanic TransferRun × Sink) → Prop
  | none, r => r = none
  | some (.error p, sk), r => r = some (.error p, sk)
  | some (.ok t, sk), r => ∃ t', r = some (.ok t', sk) ∧ t' = { t.noPath with reader := t'.reader } ∧ ((∀ e, t.transfer ≠ some (.error (.writer e))) → t' = t.noPath)

/-- C70: also a program which calls `transfer_to` — with arbitrary calls of the reader and the writer before and after it and an arbitrary underlying `Write` — behaves
in the same way with and without path tracking, except that without it no position has a JSON path -/
theorem C70_transfer {N : Nat} (hN : 0 < N) (st : Settings) (sched : List ReadEvent) (pre post : List Reader.Op) (M : Nat) (wst : WSettings) (sink : Sink) (wpre wpost : List WOp) :
    SameUpToPaths (runTransfer N { st with trackPath := true } sched pre post M wst sink wpre wpost) (runTransfer N { st with trackPath := false } sched pre post M wst sink wpre wpost) := by
  have hi := fun i => C02_no_internal_panic_partial hN { st with trackPath := true } sched pre i
  rw [runReader_eq_runAbs hN] at hi
  have hb : ∀ t sk, runTransfer N { st with trackPath := true } sched pre post M wst sink wpre wpost = some (.ok t, sk) → ∀ p, _ :=
    fun t sk hr p => C02_transfer_partial (t := t) (sk := sk) hN hr p
  rw [runTransfer_abs hN] at hb ⊢
  rw [runTransfer_abs hN]
  unfold runTransferAbs at hb ⊢
  rcases NoPath.stateAfter_rel pre (s := new (⟨BufSrc.schedBytes sched, BufSrc.schedError sched, []⟩ : AbsSrc) { st with trackPath := true })
    (s' := new (⟨BufSrc.schedBytes sched, BufSrc.schedError sched, []⟩ : AbsSrc) { st with trackPath := false }) ⟨[], nofun, rfl⟩ hi with ⟨h1, h2⟩ | ⟨t1, t2, h1, h2, h3⟩
  · rw [h1, h2]; exact rfl
  · rw [h1] at hb ⊢
    rw [h2]
    dsimp only at hb ⊢
    rcases (NoPath.transferOps_rel wpre wpost h3 (Core.new wst)).run (BufSink.new M sink) with ⟨⟨x, c1⟩, k, r1, ⟨a, i, e1, e2⟩ | ⟨⟨y, c2⟩, r2, a, b, e1, e2, e3, e4, e5, e6⟩⟩ | ⟨e, k, r1, r2⟩
    · rw [r1] at hb
      dsimp only at e1
      subst e1
      exact absurd e2 (hb _ _ rfl i).1
    · rw [r1] at hb ⊢
      rw [r2]
      dsimp only at e1 e2
      subst e1 e2
      have hb := hb _ _ rfl
      have e7 : stopsReader b.transfer = stopsReader a.transfer := by
        rw [e4]
        cases a.transfer with
        | none => rfl
        | some r =>
          rcases r with (e | e) | u
          · exact NoPath.fatal_noPath e
          · rfl
          · rfl
      unfold finishRun at hb ⊢
      dsimp only at hb ⊢
      refine ⟨_, rfl, ?_, fun hw => ?_⟩
      · unfold TransferRun.noPath
        dsimp only
        rw [e3, e4, e5]
      · have hb := fun p => (hb p).2 hw
        unfold TransferRun.noPath
        dsimp only
        rw [e3, e4, e5, ← e4, e7]
        by_cases hs : stopsReader a.transfer = true
        · rw [if_pos hs, if_pos hs]; rfl
        · rw [if_neg hs] at hb ⊢
          rw [if_neg hs, NoPath.runOps_noPath post _ _ (e6 (Bool.not_eq_true _ ▸ hs)) hb]
    · rw [r1, r2]; exact rfl

/-- `{"a\n":[1,?`: the error of `transfer_to` has a path only with path tracking; `[` and `1` have arrived at the underlying `Write` in both cases -/
example : let sched : List ReadEvent := [.data [0x7B, 0x22, 0x61, 0x5C, 0x6E, 0x22], .interrupted, .data [0x3A, 0x5B, 0x31, 0x2C, 0x3F]]
    (match runTransfer 3 { Settings.default with trackPath := true } sched [.beginObject, .skipName] [] 1 .default ⟨[], [.accept 1, .interrupted], []⟩ [] [] with
      | some (.ok ⟨[], some (.error (.reader (.syntax .malformedJson l))), [], []⟩, sk) => l == ⟨some [.objectMember ['a', '\n'], .arrayItem 1], 0, 10, 10⟩ && sk.received == [0x5B, 0x31]
      | _ => false) = true ∧
    (match runTransfer 3 { Settings.default with trackPath := false } sched [.beginObject, .skipName] [] 1 .default ⟨[], [.accept 1, .interrupted], []⟩ [] [] with
      | some (.ok ⟨[], some (.error (.reader (.syntax .malformedJson l))), [], []⟩, sk) => l == ⟨none, 0, 10, 10⟩ && sk.received == [0x5B, 0x31]
      | _ => false) = true := by
  decide +kernel

/-- `{"a":[true]}`: a successful call, followed by `current_position` -/
example : let sched : List ReadEvent := [.data [0x7B, 0x22, 0x61, 0x22, 0x3A, 0x5B, 0x74, 0x72, 0x75, 0x65, 0x5D, 0x7D]]
    (match runTransfer 3 { Settings.default with trackPath := true } sched [.beginObject, .skipName] [.currentPosition true] 1 .default ⟨[], [], []⟩ [] [] with
      | some (.ok ⟨[], some (.ok ()), [], r⟩, _) => r == [.ok (.position ⟨some [.objectMember ['a']], 0, 11, 11⟩)]
      | _ => false) = true ∧
    (match runTransfer 3 { Settings.default with trackPath := false } sched [.beginObject, .skipName] [.currentPosition true] 1 .default ⟨[], [], []⟩ [] [] with
      | some (.ok ⟨[], some (.ok ()), [], r⟩, _) => r == [.ok (.position ⟨none, 0, 11, 11⟩)]
      | _ => false) = true := by
  decide +kernel

end Verif.Props
