import Verif.Proofs.Ser.ImplExec
import Verif.Proofs.Ser.Arbitrary
import Verif.Props.Ser
/-!
# Serializer: arbitrary implementations of `Serialize` (C58)

An implementation of `Serialize` is an arbitrary program which uses the serializer (`Verif/Model/SerImpl.lean`). `Stops`: it does not use the serializer any more after an
error, as demanded by the documentation; `val`: the value of the Serde data model which it describes (`Verif/Spec/SerImpl.lean`).
-/

namespace Verif.Props
open Writer Json Ser SerSpec
open Transfer (callFailed add_str)
open WSpec (Written Steps Step Rejected calls JOk calls_steps Documents documents_of)

variable {N : Nat} {wst : WSettings} {wpre wpost : List WOp} {w : Written} {sink sk : Sink} {i : Impl} {v : SVal} {j : JVal} {e : SerErr}

/-! ## Implementations which obey the documentation -/

/-- C58: which methods an implementation calls is only relevant for the value which it describes, whatever the underlying `Write` does: the output, panics and the results
of all calls are the same as for this value (except for the errors, since an implementation may convert them) -/
theorem C58_value (hs : Stops i) (hv : val i = some v) : hide (execImpl N wst sink wpre i wpost) = hide (execSer N wst sink wpre v wpost) :=
  execProg_alike (alike_impl i hs hv)

theorem results_calls (hN : 0 < N) (hj : JOk j) (hw : Ready wst wpre w) {p : WPanic} : results wst (wpre ++ (calls j ++ [])) ≠ .error p := by
  intro h
  have hst : Steps wst .empty (wpre ++ (calls j ++ [])) (w.add j) := steps_append.2 ⟨w, hw.steps, by rw [List.append_nil]; exact calls_steps j hj w hw.can⟩
  have hops : ∀ op ∈ wpre ++ (calls j ++ []), OpOk op := by
    intro op hop
    rw [List.append_nil] at hop
    rcases List.mem_append.1 hop with hop | hop
    · exact hw.ops op hop
    · exact (calls_ok j).1 op hop
  have hfin : FinishLast (wpre ++ (calls j ++ [])) := by
    intro op hop hf
    have := List.dropLast_subset _ hop
    rw [List.append_nil, hf] at this
    rcases List.mem_append.1 this with h | h
    · exact hw.finish h
    · exact WSpec.calls_no_finish j h
  cases run_outcome wst hops hfin with
  | done w rs s1 s2 s3 s4 s5 s6 => rw [s3] at h; cases h
  | panic pre op post w u s1 s2 s3 s4 s5 s6 _ =>
    rw [s1] at hst
    obtain ⟨w1, t1, t2⟩ := steps_append.1 hst
    cases t2 with
    | cons t3 t4 =>
      obtain ⟨w2, t5, _⟩ := step_like (steps_unique t1 s2) t3
      exact s4 ⟨w2, t5⟩

/-- C58: `serialize_value` does not panic, whatever the underlying `Write` does -/
theorem C58_no_panic (hN : 0 < N) (hs : Stops i) (ho : Orderly i) (hw : Ready wst wpre w) (hstr : ¬ HasString wpre) : ∃ t, (execImpl N wst sink wpre i []).1 = .ok t := by
  cases h : (execImpl N wst sink wpre i []).1 with
  | ok t => exact ⟨t, rfl⟩
  | error p =>
    exfalso
    have h1 : (execSer N wst sink wpre (shape i) []).1 = .error p := execProg_cut (cut_impl i hs) h
    obtain ⟨j, hj, h2⟩ := C48_any_sink hN (shape_ok i ho) hw hstr (by rintro ⟨_, _, h⟩; cases h) h1
    exact results_calls hN (json_ok (shape_ok i ho) hj) hw h2

/-- C58: a panic is caused by the calls after `serialize_value`, as if the value was written with individual calls -/
theorem C58_any_sink (hN : 0 < N) (hs : Stops i) (ho : Orderly i) (hw : Ready wst wpre w) (hstr : ¬ HasString wpre) (hstr' : ¬ HasString wpost) {p : WPanic}
    (h : (execImpl N wst sink wpre i wpost).1 = .error p) : ∃ v j, val i = some v ∧ json v = .ok j ∧ results wst (wpre ++ (calls j ++ wpost)) = .error p := by
  obtain ⟨t, ht⟩ := C58_no_panic (sink := sink) hN hs ho hw hstr
  cases hv : val i with
  | some v =>
    have h1 := congrArg Prod.fst (C58_value (N := N) (wst := wst) (sink := sink) (wpre := wpre) (wpost := wpost) hs hv)
    have h2 : (execSer N wst sink wpre v wpost).1 = .error p := by
      unfold hide at h1
      dsimp only at h1
      rw [h] at h1
      cases hx : (execSer N wst sink wpre v wpost).1 with
      | ok t => rw [hx] at h1; cases h1
      | error p' => rw [hx] at h1; cases h1; rfl
    have hok : Ok v := val_shape i hv ▸ shape_ok i ho
    obtain ⟨j, hj, h3⟩ := C48_any_sink hN hok hw hstr hstr' h2
    exact ⟨v, j, rfl, hj, h3⟩
  | none =>
    exfalso
    rcases execProg_split N wst sink wpre (serializeI i) wpost with ⟨p', h1, h2⟩ | ⟨t', h1, h2, h3⟩ | ⟨t', h1, h2, h3⟩
    · have : (execImpl N wst sink wpre i []).1 = .error p' := h1
      rw [ht] at this
      cases this
    · have : (execImpl N wst sink wpre i wpost).1 = .ok t' := by
        show (execProg N wst sink (progOps wpre (serializeI i) wpost)).1 = _
        rw [h3]
        exact h1
      rw [h] at this
      cases this
    · exact execProg_never (never_impl i hs hv) h1 h2

/-- C58: if `serialize_value` is successful then the implementation has described a value which has a JSON value; in particular announced lengths are correct, all keys are
supported and all numbers are finite -/
theorem C58_success (hN : 0 < N) (hs : Stops i) (ho : Orderly i) (hw : Ready wst wpre w) {t : SerOut} (h : (execImpl N wst sink wpre i wpost).1 = .ok t) (ht : t.ser = some (.ok ())) :
    ∃ v j, val i = some v ∧ json v = .ok j := by
  cases hv : val i with
  | none => exact absurd ht (execProg_never (never_impl i hs hv) h)
  | some v =>
    cases hj : json v with
    | ok j => exact ⟨v, j, rfl, hj⟩
    | error e =>
      exfalso
      have hok : Ok v := val_shape i hv ▸ shape_ok i ho
      obtain ⟨t', h1, h2⟩ : ∃ t', (execImpl N wst sink wpre i []).1 = .ok t' ∧ t'.ser = some (.ok ()) := by
        rcases execProg_split N wst sink wpre (serializeI i) wpost with ⟨p', h1, h2⟩ | ⟨t', h1, h2, h3⟩ | ⟨t', h1, h2, h3⟩
        · have : (execImpl N wst sink wpre i wpost).1 = .error p' := by
            show (execProg N wst sink (progOps wpre (serializeI i) wpost)).1 = _
            rw [h2]
            exact h1
          rw [h] at this
          cases this
        · have : (execImpl N wst sink wpre i wpost).1 = .ok t' := by
            show (execProg N wst sink (progOps wpre (serializeI i) wpost)).1 = _
            rw [h3]
            exact h1
          rw [h] at this
          cases this
          exact absurd ht h2
        · exact ⟨t', h1, h2⟩
      have h3 := congrArg Prod.fst (C58_value (N := N) (wst := wst) (sink := sink) (wpre := wpre) (wpost := []) hs hv)
      unfold hide at h3
      dsimp only at h3
      rw [h1] at h3
      obtain ⟨r1, b1, c1, g1, g2, g3, hi, hok'⟩ := ready_state hw
      have hse := serialize_ends (wst := wst) v hok hw.can
      rw [hj] at hse
      obtain ⟨b2, c2, w2, g4, g5, g6, g7⟩ := hse c1 hi hok'
      have hid := serOps_fails [] g1 g3 g4
      have hq := run_spec (quiet_serOps wpre [] v (Core.new wst)) (new_good (s := sink) hN)
      cases hx : (execSer N wst sink wpre v []).1 with
      | error p => rw [hx] at h3; cases h3
      | ok t2 =>
        rw [hx] at h3
        injection h3 with h3
        injection h3 with _ h3
        injection h3 with h4 h5
        rw [h2] at h4
        have hser : t2.ser = some (.ok ()) := by
          cases hy : t2.ser with
          | none => rw [hy] at h4; cases h4
          | some y =>
            rw [hy] at h4
            cases y with
            | ok => rfl
            | error => injection h4 with h4; cases h4
        have hpost : ¬ Reported t2.post := by
          rw [execSer_eq, execProg_eq] at hx
          revert hx
          generalize ((wops wpre).run (Core.new wst)).run.run (BufSink.new N sink) = x1
          match x1 with
          | .err p k => rintro ⟨⟩
          | .ok (.error e, _) _ => exact nomatch e
          | .ok (.ok pre, c) k =>
            dsimp only
            unfold restProg
            split
            · rintro ⟨⟩ ⟨a, r, b, h, _⟩; simp at h
            · generalize ((serialize v).run c).run.run k = x2
              match x2 with
              | .err p k => rintro ⟨⟩
              | .ok (.error e, _) _ => rintro ⟨⟩ ⟨a, r, b, h, _⟩; simp at h
              | .ok (.ok (), c') k' => rintro ⟨⟩ ⟨a, r, b, h, _⟩; simp at h
        rw [hid] at hq
        unfold execSer at hx
        generalize ((serOps wpre v []).run (Core.new wst)).run.run (BufSink.new N sink) = x at hq hx
        match x, hq, hx with
        | .err p k, _, hx => cases hx
        | .ok (.error e, _) _, _, _ => exact nomatch e
        | .ok (.ok t3, c) kk, hq, hx =>
          cases hx
          rcases hq with ⟨q1, _⟩ | ⟨_, q2, _⟩
          · injection q1 with q1
            injection q1 with q1 _
            injection q1 with q1
            rw [q1] at hser
            cases hser
          · obtain ⟨t4, h6, h7⟩ := q2 _ rfl
            cases h6
            rcases h7 with ⟨_, h7⟩ | ⟨e, h7, _⟩ | h7
            · rw [hser] at h7; cases h7
            · rw [hser] at h7; cases h7
            · exact hpost h7

/-- C58: if the underlying `Write` does not fail then `serialize_value` is successful exactly if the implementation describes a value which has a JSON value -/
theorem C58_success_iff (hN : 0 < N) (hs : Stops i) (ho : Orderly i) (hw : Ready wst wpre w) (hstr : ¬ HasString wpre) (hrel : sink.Reliable) :
    ∃ t, (execImpl N wst sink wpre i []).1 = .ok t ∧ (t.ser = some (.ok ()) ↔ ∃ v j, val i = some v ∧ json v = .ok j) := by
  obtain ⟨t, ht⟩ := C58_no_panic (sink := sink) hN hs ho hw hstr
  refine ⟨t, ht, C58_success hN hs ho hw ht, ?_⟩
  rintro ⟨v, j, hv, hj⟩
  have h1 := congrArg Prod.fst (C58_value (N := N) (wst := wst) (sink := sink) (wpre := wpre) (wpost := []) hs hv)
  have hok : Ok v := val_shape i hv ▸ shape_ok i ho
  unfold hide at h1
  dsimp only at h1
  rw [ht] at h1
  rcases C48_serialize (wpost := []) hN hok hj hw nofun nofun hrel with ⟨r1, r3, sk, sk', h2, h3, h4, h5⟩ | ⟨p, sk, sk', _, h4⟩
  · rw [h4] at h1
    injection h1 with h1
    injection h1 with _ h1
    injection h1 with h1 _
    cases hy : t.ser with
    | none => rw [hy] at h1; cases h1
    | some y =>
      rw [hy] at h1
      cases y with
      | ok => rfl
      | error => injection h1 with h1; cases h1
  · rw [h4] at h1
    cases h1

/-- C58, for a complete document: the output denotes the JSON value of the value which the implementation describes -/
theorem C58_document (hN : 0 < N) (hs : Stops i) (ho : Orderly i) (hv : val i = some v) (hj : json v = .ok j) (hrel : sink.Reliable) :
    ∃ sk out, execImpl N wst sink [] i [.finishDocument] = (.ok ⟨[], some (.ok ()), [.ok .unit]⟩, sk) ∧ sk.received = sink.received ++ out ∧ ∀ cfg, IsDoc cfg out j := by
  have hok : Ok v := val_shape i hv ▸ shape_ok i ho
  obtain ⟨sk, out, h1, h2, h3⟩ := C48_document (wst := wst) hN hok hj hrel
  refine ⟨sk, out, ?_, h2, h3⟩
  have h4 := C58_value (N := N) (wst := wst) (sink := sink) (wpre := []) (wpost := [.finishDocument]) hs hv
  rw [h1] at h4
  revert h4
  generalize execImpl N wst sink [] i [.finishDocument] = x
  match x with
  | (.error p, sk') => rintro ⟨⟩
  | (.ok ⟨a, b, c⟩, sk') =>
    intro h4
    injection h4 with h4 h5
    injection h4 with h4
    injection h4 with h6 h4
    injection h4 with h7 h8
    change a = [] at h6
    change c = [.ok .unit] at h8
    change sk' = sk at h5
    subst h6 h8 h5
    match b, h7 with
    | some (.ok ()), _ => rfl
    | some (.error e), h7 => injection h7 with h7; cases h7
    | none, h7 => cases h7

/-! ## Implementations which may continue after errors -/

/-- C58: an arbitrary implementation, a caller which ignores errors as well, an arbitrary underlying `Write`: all panics are documented ones (incorrect usage) -/
theorem C58_arbitrary_panics (hN : 0 < N) (hi : Trusted i) (hpre : ∀ op ∈ wpre, OpOk op) (hfin : .finishDocument ∉ wpre) (hpost : ∀ op ∈ wpost, OpOk op) {p : WPanic}
    (h : (execImplAll N wst sink wpre i wpost).1 = .error p) : ∃ u, p = .usage u := by
  have hpre' : ∀ (ops : List WOp), (∀ op ∈ ops, OpOk op) → .finishDocument ∉ ops → ∀ c, Weak c → ((wopsAll ops).run c).Safe fun r => Weak r.2 := by
    intro ops
    induction ops with
    | nil => exact fun _ _ c hc => hc
    | cons o ops ih =>
      intro h1 h2 c hc
      refine Tree.Safe.bind (ws_wop (h1 o List.mem_cons_self) hc) ?_
      rintro ⟨r, c'⟩ h
      dsimp only
      rw [if_neg (show ¬ o = .finishDocument from fun h => h2 (h ▸ List.mem_cons_self))]
      refine Tree.Safe.bind (ih (fun o h => h1 o (List.mem_cons_of_mem _ h)) (fun h => h2 (List.mem_cons_of_mem _ h)) c' h) ?_
      rintro ⟨e | _, _⟩ h
      · exact nomatch e
      · exact h
  have hsafe : ((progOpsAll wpre (serializeI i) wpost).run (Core.new wst)).Safe fun _ => True := by
    unfold progOpsAll
    rw [T.run_bind]
    refine (hpre' wpre hpre hfin _ ⟨fun _ => Nat.zero_le _, fun _ _ _ _ => Nat.zero_le _⟩).bind ?_
    rintro ⟨e | pre, c⟩ hc
    · exact nomatch e
    dsimp only
    rw [T.run_bind]
    refine Tree.Safe.bind (P := fun (r : Except Empty (Except SerErr Unit) × Core) => Weak r.2) (Tree.Safe.bind (safe_impl i hi c hc) fun _ h => h) ?_
    rintro ⟨e | r, c⟩ hc
    · exact nomatch e
    dsimp only
    rw [T.run_bind]
    refine Tree.Safe.bind (wopsAll_safe hpost hc) ?_
    rintro ⟨e | r, c⟩ _
    · exact nomatch e
    · trivial
  have hr := hsafe.run hN (new_fine N sink)
  unfold execImplAll at h
  rw [execProg_out] at h
  generalize ((progOpsAll wpre (serializeI i) wpost).run (Core.new wst)).run.run (BufSink.new N sink) = r at h hr
  match r, h, hr with
  | .err p' k, h, hr => cases h; exact hr
  | .ok (.error e, _) _, _, _ => exact nomatch e

/-- the calls which the serializer makes -/
theorem serOps_emits {c1 c2 : Core} {bs : Bytes} {ops : List WOp} {w' : Written} (hi : WInv wst c1 w) (hok : WOk wst w) (hst : Steps wst w ops w') (hops : ∀ op ∈ ops, SerOp op)
    (h1 : WInv wst c2 w') (h2 : w'.bytes wst = w.bytes wst ++ bs) (hs : w'.str = none) :
    Emits (wops ops) c1 bs (List.replicate ops.length (.ok .unit)) c2 ∧ ResOks ops (List.replicate ops.length (.ok .unit)) := by
  cases wops_outcome ops hi hok (fun op h => (hops op h).1) (fun op hop => (hops op (List.dropLast_subset _ hop)).2.1) with
  | done w2 rs bs2 c3 t1 t2 t3 t4 t5 t6 =>
    have hw2 := like_eq (steps_unique hst t1) hs
    subst hw2
    have := t4.unique h1 hs
    subst this
    rw [t3] at h2
    have := List.append_cancel_left h2
    subst this
    have := resOks_units t5 (fun op h => (hops op h).2.2.1) (fun op h => by rintro ⟨a, b, h'⟩; exact (hops op h).2.2.2 a b h')
    subst this
    exact ⟨t2, t5⟩
  | panic p op post w2 u bs2 t1 t2 t3 t4 t5 t6 =>
    exfalso
    rw [t1] at hst
    obtain ⟨w1, r1, r2⟩ := steps_append.1 hst
    cases r2 with
    | cons r3 r4 =>
      obtain ⟨w2, r5, _⟩ := step_like (steps_unique r1 t2) r3
      exact t3 ⟨w2, r5⟩

theorem after_str {r : Except SerErr Unit} {w' : Written} (h : After wst w r w') (hw : w.str = none) : w'.str = none := by
  cases h with
  | value _ j _ => rw [add_str]; exact hw
  | unfinished => rfl
  | nothing => exact hw

/-- C58: an arbitrary implementation, which may ignore errors, if the underlying `Write` does not fail: either it is noticed with a panic that it uses the serializer
incorrectly, or it has made allowed calls of the writer (the same results as for individual calls `ops`), with which exactly one value was added, or containers were left
open, or nothing was written and an error is returned. What was written before is not changed: in particular no containers are closed which were not opened by the implementation. -/
theorem C58_arbitrary (hN : 0 < N) (hi : Trusted i) (hw : Ready wst wpre w) (hrel : sink.Reliable) :
    ∃ ops w', Steps wst w ops w' ∧ (∀ op ∈ ops, SerOp op) ∧
    ((∃ u, (execImpl N wst sink wpre i wpost).1 = .error (.usage u) ∧ (execImpl N wst sink wpre i wpost).2.received <+: sink.received ++ emitted wst (wpre ++ ops)) ∨
    (∃ e r1, After wst w (.error e) w' ∧ r1.length = wpre.length ∧ (execImpl N wst sink wpre i wpost).1 = .ok ⟨r1, some (.error e), []⟩ ∧
      (execImpl N wst sink wpre i wpost).2.received <+: sink.received ++ emitted wst (wpre ++ ops)) ∨
    After wst w (.ok ()) w' ∧ ((∃ r1 r3, r1.length = wpre.length ∧ results wst (wpre ++ (ops ++ wpost)) = .ok (r1 ++ (List.replicate ops.length (.ok .unit) ++ r3)) ∧
        (execImpl N wst sink wpre i wpost).1 = .ok ⟨r1, some (.ok ()), r3⟩) ∨
      ∃ p, results wst (wpre ++ (ops ++ wpost)) = .error p ∧ (execImpl N wst sink wpre i wpost).1 = .error p) ∧
      (execImpl N wst sink wpre i wpost).2.received <+: sink.received ++ emitted wst (wpre ++ (ops ++ wpost)) ∧
      ((∀ op ∈ wpost, OpOk op) → FinishLast wpost → wpost.getLast? = some .finishDocument → (∀ p, results wst (wpre ++ (ops ++ wpost)) ≠ .error p) →
        (execImpl N wst sink wpre i wpost).2.received = sink.received ++ emitted wst (wpre ++ (ops ++ wpost)))) := by
  obtain ⟨r1, b1, c1, h1, h2, h3, hinv, hok⟩ := ready_state hw
  obtain ⟨x1, x2, x3⟩ := execProg_ideal (x := progOps wpre (serializeI i) wpost) (wst := wst) hN hrel
  have hout : ∀ {ops : List WOp} {bs : Bytes} {c2 : Core} {w' : Written}, Emits (wops ops) c1 bs (List.replicate ops.length (.ok .unit)) c2 → ResOks ops (List.replicate ops.length (.ok .unit)) → w'.bytes wst = w.bytes wst ++ bs →
      emitted wst (wpre ++ ops) = b1 ++ bs := by
    intro ops bs c2 w' h _ _
    unfold Emits at h
    rw [emitted, wops_append hw.finish h1 h2, h]
    rfl
  rcases walks_impl i hi c1 hinv hok with ⟨bs, r, c', ops, w', g1, g2, g3, g4, g5, g6⟩ | ⟨bs, u, ops, w', g1, g2, g4, g5⟩
  · have hstr := after_str g6 hw.can.1
    obtain ⟨h5, h6⟩ := serOps_emits hinv hok g4 g5 g3 g2 hstr
    refine ⟨ops, w', g4, g5, .inr ?_⟩
    cases r with
    | error e =>
      have hid := progOps_fails wpost h1 h3 (show Errs _ _ _ _ _ from g1)
      rw [hid] at x1 x2
      exact .inl ⟨e, r1, g6, resOks_length h2, x1, by rw [hout h5 h6 g2]; exact x2⟩
    | ok =>
      obtain ⟨hid, hfl⟩ := progOps_ideal wpost h1 h3 (show Emits _ _ _ _ _ from g1)
      have hres : results wst (wpre ++ (ops ++ wpost)) = (match ((wops wpost).run c').ideal with
          | (.ok (.ok r3, _), _) => .ok (r1 ++ (List.replicate ops.length (.ok .unit) ++ r3))
          | (.ok (.error e, _), _) => nomatch e
          | (.error p, _) => .error p) ∧ emitted wst (wpre ++ (ops ++ wpost)) = b1 ++ (bs ++ ((wops wpost).run c').ideal.2) := by
        rw [results, emitted, wops_append hw.finish h1 h2, wops_append (fun h => (g5 _ h).2.1 rfl) h5 h6]
        rcases ((wops wpost).run c').ideal with ⟨p | ⟨e | r3, c3⟩, b3⟩
        · exact ⟨rfl, rfl⟩
        · nomatch e
        · exact ⟨rfl, rfl⟩
      have hem : ((progOps wpre (serializeI i) wpost).run (Core.new wst)).ideal.2 = emitted wst (wpre ++ (ops ++ wpost)) := by
        rw [hid, hres.2]
        rcases ((wops wpost).run c').ideal with ⟨p | ⟨e | r3, c3⟩, b3⟩
        · rfl
        · nomatch e
        · rfl
      refine .inr ⟨g6, ?_, by rw [← hem]; exact x2, ?_⟩
      · rw [hid] at x1
        rw [hres.1]
        revert x1
        rcases ((wops wpost).run c').ideal with ⟨p | ⟨e | r3, c3⟩, b3⟩
        · exact fun x1 => .inr ⟨p, rfl, x1⟩
        · nomatch e
        · exact fun x1 => .inl ⟨r1, r3, resOks_length h2, rfl, x1⟩
      · intro k1 k2 k3 k4
        rw [← hem]
        refine x3 (hfl true ?_)
        cases wops_outcome wpost g3 (hok.steps g4) k1 k2 with
        | done w' rs bs c' t1 t2 t3 t4 t5 t6 => exact t6 k3
        | panic p op post w' u bs t1 t2 t3 t4 t5 t6 =>
          exfalso
          unfold Panics at t4
          refine k4 (.usage u) ?_
          rw [hres.1, t4]
  · have hid := progOps_panics wpost h1 h3 (show Panics _ _ _ _ from g1)
    rw [hid] at x1 x2
    refine ⟨ops, w', g4, g5, .inl ⟨u, x1, ?_⟩⟩
    cases wops_outcome ops hinv hok (fun op h => (g5 op h).1) (fun op hop => (g5 op (List.dropLast_subset _ hop)).2.1) with
    | done w2 rs bs2 c3 t1 t2 t3 t4 t5 t6 =>
      have hlike := steps_unique g4 t1
      have hws : w'.str = none := by
        have : ∀ {ops : List WOp} {w w' : Written}, Steps wst w ops w' → (∀ op ∈ ops, SerOp op) → w.str = none → w'.str = none := by
          intro ops w w' h
          induction h with
          | nil => exact fun _ h => h
          | cons hs _ ih =>
            intro ho hw
            refine ih (fun op h => ho op (List.mem_cons_of_mem _ h)) ?_
            cases hs with
            | value _ _ => rw [add_str]; exact hw
            | rejected => exact hw
            | unfinished _ hu =>
              exfalso
              cases hu <;> exact (ho _ List.mem_cons_self).2.2.2 _ _ rfl
            | beginArray => exact hw
            | beginObject => exact hw
            | endArray => exact add_str
            | endObject => exact add_str
            | name => rfl
            | finish => rfl
        exact this g4 g5 hw.can.1
      have := like_eq hlike hws
      subst this
      rw [t3] at g2
      have := List.append_cancel_left g2
      subst this
      rw [emitted, wops_append hw.finish h1 h2]
      unfold Emits at t2
      rw [t2]
      exact x2
    | panic p op post w2 u bs2 t1 t2 t3 t4 t5 t6 =>
      exfalso
      rw [t1] at g4
      obtain ⟨w1, r1, r2⟩ := steps_append.1 g4
      cases r2 with
      | cons r3 r4 =>
        obtain ⟨w2, r5, _⟩ := step_like (steps_unique r1 t2) r3
        exact t3 ⟨w2, r5⟩

theorem ready_empty : Ready wst [] .empty := ⟨.nil, ⟨rfl, .inl rfl⟩, nofun, nofun⟩

/-- C58: if `serialize_value` of an arbitrary implementation and `finish_document` are successful then the output is a JSON document -/
theorem C58_arbitrary_document (hN : 0 < N) (hi : Trusted i) (hrel : sink.Reliable) {t : SerOut} (h : execImpl N wst sink [] i [.finishDocument] = (.ok t, sk)) (ht : t.ser = some (.ok ())) :
    ∃ j out, t.post = [.ok .unit] ∧ sk.received = sink.received ++ out ∧ ∀ cfg, IsDoc cfg out j := by
  obtain ⟨ops, w', h1, h2, h3⟩ := C58_arbitrary (wpost := [.finishDocument]) hN hi (ready_empty (wst := wst)) hrel
  rw [h] at h3
  rcases h3 with ⟨u, h3, _⟩ | ⟨e, r1, _, _, h3, _⟩ | ⟨h3, h4, _, h5⟩
  · cases h3
  · cases h3; cases ht
  · have hops : ∀ op ∈ ops ++ [.finishDocument], OpOk op := op_ok_append fun op h => (h2 op h).1
    rcases h4 with ⟨r1, r3, k1, k2, k3⟩ | ⟨p, _, k⟩
    rotate_left
    · cases k
    have h6 := h5 (by simp [OpOk]) (by intro op h; cases h) rfl (fun p hp => by rw [k2] at hp; cases hp)
    have k2' : results wst (ops ++ [.finishDocument]) = .ok (r1 ++ (List.replicate ops.length (.ok .unit) ++ r3)) := k2
    obtain rfl : r1 = [] := List.length_eq_zero_iff.1 k1
    cases run_outcome wst hops (finish_last fun h => (h2 _ h).2.1 rfl) with
    | panic pre op post w u s1 s2 s3 s4 s5 s6 _ => rw [s5] at k2'; cases k2'
    | done w2 rs s1 s2 s3 s4 s5 s6 =>
      obtain ⟨w1, t1, t2⟩ := steps_append.1 s1
      have hstr := after_str h3 rfl
      have := like_eq (steps_unique h1 t1) hstr
      subst this
      rw [k2'] at s3
      injection s3 with s3
      have hlast := resOks_last s4 nofun (by rintro ⟨_, _, h⟩; cases h)
      have hlen := resOks_length s4
      rw [← s3] at hlast hlen
      have hr3 : r3 = [.ok .unit] := by
        match r3, hlen, hlast with
        | [x], _, hlast =>
          rw [List.nil_append, List.getLast?_concat] at hlast
          injection hlast with hlast
          rw [hlast]
        | [], hlen, _ => simp at hlen
        | _ :: _ :: _, hlen, _ => simp at hlen
      subst hr3
      cases h3 with
      | unfinished _ _ hgs =>
        exfalso
        rename_i gs hc
        cases t2 with
        | cons t3 _ =>
          cases gs with
          | nil => exact hgs rfl
          | cons g gs =>
            cases t3 with
            | value _ hd => cases hd
            | rejected hr => cases hr
            | unfinished _ hu => cases hu
      | value _ j hc =>
        have hw2 : w2 = ⟨[j], [], none⟩ := by
          cases t2 with
          | cons t3 t4 =>
            cases t4
            cases t3 with
            | value _ hd => cases hd
            | rejected hr => cases hr
            | unfinished _ hu => cases hu
            | finish => rfl
        subst hw2
        injection k3 with k3
        refine ⟨j, (WSpec.topsBytes wst [j]), by rw [k3], ?_, ?_⟩
        · have h6' : sk.received = sink.received ++ emitted wst (ops ++ [.finishDocument]) := h6
          rw [h6', s5, bytes_complete]
        · have : WSpec.topsBytes wst [j] = (WSpec.cst wst 0 j).bytes := by simp [WSpec.topsBytes]
          rw [this]
          exact fun cfg => WSpec.isDoc_cst j s2.tops.1

/-- C58: the output of an arbitrary implementation is always the beginning of JSON documents, also if there is an error or a panic -/
theorem C58_arbitrary_prefix (hN : 0 < N) (hi : Trusted i) (hw : Ready wst wpre w) (hrel : sink.Reliable) :
    ∃ vs out, Documents wst.separator vs out ∧ (execImpl N wst sink wpre i []).2.received <+: sink.received ++ out := by
  obtain ⟨ops, w', h1, h2, h3⟩ := C58_arbitrary (wpost := []) hN hi hw hrel
  have h4 : (execImpl N wst sink wpre i []).2.received <+: sink.received ++ emitted wst (wpre ++ ops) := by
    rcases h3 with ⟨u, _, h3⟩ | ⟨e, r1, _, _, _, h3⟩ | ⟨_, _, h3, _⟩
    · exact h3
    · exact h3
    · rw [List.append_nil] at h3; exact h3
  have hops : ∀ op ∈ wpre ++ ops, OpOk op := by
    intro op hop
    rcases List.mem_append.1 hop with hop | hop
    · exact hw.ops op hop
    · exact (h2 op hop).1
  have hfin : FinishLast (wpre ++ ops) := by
    intro op hop hf
    have := List.dropLast_subset _ hop
    rw [hf] at this
    rcases List.mem_append.1 this with h | h
    · exact hw.finish h
    · exact (h2 _ h).2.1 rfl
  have hw' : ∃ w, WOk wst w ∧ emitted wst (wpre ++ ops) = w.bytes wst := by
    cases run_outcome wst hops hfin with
    | done w rs s1 s2 s3 s4 s5 s6 => exact ⟨w, s2, s5⟩
    | panic pre op post w u s1 s2 s3 s4 s5 s6 _ => exact ⟨w, s3, s6⟩
  obtain ⟨w2, g1, g2⟩ := hw'
  obtain ⟨vs, t1, t2, t3⟩ := written_prefix g1
  refine ⟨vs, _, documents_of t1.tops t2 t1.single, h4.trans ?_⟩
  rw [g2]
  exact (List.prefix_append_right_inj _).2 t3

/-! ## Examples -/

/-- `{"a":[true,"x"],"b":{"1":null}}`; errors are returned -/
def exImpl : Impl := .struct 2 id (.field ['a'] (.seq none id (.elem (.scalar (.bool true) .pass) fun
    | .error e => .drop e
    | .ok _ => .elem (.scalar (.str ['x']) .pass) fun
      | .error e => .drop e
      | .ok _ => .fin .pass)) fun
  | .error e => .drop e
  | .ok _ => .field ['b'] (.map (some 1) id (.key (.scalar (.int .i32 1) .pass) fun
      | .error e => .drop e
      | .ok _ => .value (.some (.scalar .unit .pass) .pass) fun
        | .error e => .drop e
        | .ok _ => .fin .pass)) fun
    | .error e => .drop e
    | .ok _ => .fin .pass)

theorem exImpl_stops : Stops exImpl :=
  ⟨⟨trivial, fun e => ⟨e, rfl⟩, trivial, fun e => ⟨e, rfl⟩, trivial⟩, fun e => ⟨e, rfl⟩, ⟨trivial, fun e => ⟨e, rfl⟩, trivial, fun e => ⟨e, rfl⟩, trivial⟩, fun e => ⟨e, rfl⟩, trivial⟩

example : Orderly exImpl := ⟨⟨trivial, trivial, trivial⟩, ⟨rfl, trivial, rfl, trivial, rfl⟩, trivial⟩

example : ∃ v, val exImpl = some v ∧ json v = .ok (.obj [(['a'], .arr [.bool true, .str ['x']]), (['b'], .obj [(['1'], .null)])]) := ⟨_, rfl, rfl⟩

example : (match execImpl 3 .default ⟨[], [.accept 1, .interrupted], []⟩ [] exImpl [.finishDocument] with
    | (.ok ⟨[], some (.ok ()), [.ok .unit]⟩, sk) => sk.received == "{\"a\":[true,\"x\"],\"b\":{\"1\":null}}".toUTF8.toList
    | _ => false) = true := by
  decide +kernel

/-- the announced number of elements is wrong; the implementation converts the error -/
def exWrong : Impl := .tuple 2 id (.elem (.scalar .unit .pass) fun
  | .error e => .drop e
  | .ok _ => .fin ⟨none, fun _ => .custom ['w', 'r', 'o', 'n', 'g']⟩)

example : Stops exWrong ∧ Orderly exWrong ∧ (∃ v, val exWrong = some v ∧ json v = .error (.incorrectElementsCount 2 1)) :=
  ⟨⟨trivial, fun e => ⟨e, rfl⟩, trivial⟩, ⟨trivial, trivial⟩, _, rfl, rfl⟩

example : (match execImpl 3 .default ⟨[], [], []⟩ [] exWrong [.finishDocument] with
    | (.ok ⟨[], some (.error (.custom t)), []⟩, _) => t == ['w', 'r', 'o', 'n', 'g']
    | _ => false) = true := by
  decide +kernel

/-- An implementation which ignores the error of `serialize_element`: the nested sequence is left open because the announced length is wrong. -/
def exIgnores : Impl := .seq none id (.elem (.seq (some 1) id (.fin .pass)) fun _ => .fin .pass)

example : Trusted exIgnores ∧ ¬ Stops exIgnores := by
  refine ⟨⟨trivial, fun _ => trivial⟩, ?_⟩
  rintro ⟨_, h, _⟩
  obtain ⟨e, h⟩ := h .mapKeyNotString
  cases h

/-- C58: without the condition `Stops` success of `serialize_value` does not mean that a value was written: the call of `end` of the outer sequence has closed the inner
one. Here `[[]` is the output, and `finish_document` panics. (TODO in ser.rs 193) -/
theorem C58_ignored_error : (∃ sk, execImpl 8 .default ⟨[], [], []⟩ [] exIgnores [] = (.ok ⟨[], some (.ok ()), []⟩, sk)) ∧
    (∃ u sk, execImpl 8 .default ⟨[], [], []⟩ [] exIgnores [.finishDocument] = (.error (.usage u), sk)) := by
  have h1 : (match execImpl 8 .default ⟨[], [], []⟩ [] exIgnores [] with
      | (.ok ⟨[], some (.ok ()), []⟩, _) => true | _ => false) = true := by decide +kernel
  have h2 : (match execImpl 8 .default ⟨[], [], []⟩ [] exIgnores [.finishDocument] with
      | (.error (.usage _), _) => true | _ => false) = true := by decide +kernel
  constructor
  · revert h1
    generalize execImpl 8 .default ⟨[], [], []⟩ [] exIgnores [] = x
    match x with
    | (.ok ⟨[], some (.ok ()), []⟩, sk) => exact fun _ => ⟨sk, rfl⟩
    | (.ok ⟨[], some (.ok ()), _ :: _⟩, sk) => exact nofun
    | (.ok ⟨[], some (.error _), _⟩, sk) => exact nofun
    | (.ok ⟨[], none, _⟩, sk) => exact nofun
    | (.ok ⟨_ :: _, _, _⟩, sk) => exact nofun
    | (.error _, sk) => exact nofun
  · revert h2
    generalize execImpl 8 .default ⟨[], [], []⟩ [] exIgnores [.finishDocument] = x
    match x with
    | (.error (.usage u), sk) => exact fun _ => ⟨u, sk, rfl⟩
    | (.error (.internal _), sk) => exact nofun
    | (.ok _, sk) => exact nofun

/-- after that the enclosing array which was opened by the caller is not closed -/
example : (match execImpl 8 .default ⟨[], [], []⟩ [.beginArray] exIgnores [.endArray, .endArray, .finishDocument] with
    | (.ok ⟨[.ok .unit], some (.ok ()), [.ok .unit, .ok .unit, .ok .unit]⟩, sk) => sk.received == "[[[]]]".toUTF8.toList
    | _ => false) = true := by
  decide +kernel

/-- the serializer is used after an error of the underlying `Write` -/
example : (match execImplAll 1 .default ⟨[], [.error 3, .error 4], []⟩ [.beginArray] exIgnores [.endArray] with
    | (.ok ⟨_, some _, _⟩, _) => true
    | _ => false) = true := by
  decide +kernel

end Verif.Props
