import Verif.Proofs.Ser.Exec
import Verif.Props.Transfer
/-!
# Serializer (C48, C49)

A program which uses a writer: calls after which a value may be written (see `Verif/Spec/Writer.lean`), `serialize_value`, and further calls. The JSON value of a
value of the Serde data model is defined in `Verif/Spec/Ser.lean`.
-/

namespace Verif.Props
open Writer Json Ser SerSpec
open Transfer (callFailed clean_wops add_str)
open WSpec (Written Steps Step Rejected calls JOk calls_steps calls_no_finish jok_iff steps_app steps_one)

variable {N : Nat} {wst : WSettings} {wpre wpost : List WOp} {w : Written} {sink : Sink} {v : SVal} {j : JVal} {e : SerErr}

/-- the individual calls which write a value -/
theorem calls_emits {c1 c2 : Core} {bs : Bytes} (hi : WInv wst c1 w) (hok : WOk wst w) (hc : w.CanAdd wst) (hj : JOk j) (h1 : WInv wst c2 (w.add j)) (h2 : (w.add j).bytes wst = w.bytes wst ++ bs) :
    Emits (wops (calls j)) c1 bs (List.replicate (calls j).length (.ok .unit)) c2 ∧ ResOks (calls j) (List.replicate (calls j).length (.ok .unit)) := by
  have hcalls := calls_steps (st := wst) j hj w hc
  have hws : (w.add j).str = none := by rw [add_str]; exact hc.1
  cases wops_outcome (calls j) hi hok (calls_ok j).1 (fun op hop h => calls_no_finish j (h ▸ List.dropLast_subset _ hop)) with
  | done w2 rs bs2 c3 t1 t2 t3 t4 t5 t6 =>
    have hw2 := like_eq (steps_unique hcalls t1) hws
    subst hw2
    have := t4.unique h1 hws
    subst this
    rw [t3] at h2
    have := List.append_cancel_left h2
    subst this
    have := resOks_units t5 (calls_accepted j hj) (calls_ok j).2
    subst this
    exact ⟨t2, t5⟩
  | panic p op post w2 u bs2 t1 t2 t3 t4 t5 t6 =>
    exfalso
    rw [t1] at hcalls
    obtain ⟨w1, r1, r2⟩ := steps_append.1 hcalls
    cases r2 with
    | cons r3 r4 =>
      obtain ⟨w2, r5, _⟩ := step_like (steps_unique r1 t2) r3
      exact t3 ⟨w2, r5⟩

/-- the calls in front of `serialize_value` -/
theorem ready_state (hw : Ready wst wpre w) : ∃ r1 b1 c1, Emits (wops wpre) (Core.new wst) b1 r1 c1 ∧ ResOks wpre r1 ∧ r1.any callFailed = false ∧ WInv wst c1 w ∧ WOk wst w := by
  obtain ⟨c1, r1, w', hl, hok, hi, hres, he, hb⟩ := Writer.reach wst hw.finish hw.ops hw.steps
  have hww := like_eq hl hw.can.1
  subst hww
  exact ⟨r1, _, c1, he, hres, clean_wops wpre (WInv.new wst) (WOk.empty wst) hw.ops hw.finish hw.steps hw.can.1 he hres, hi, hok⟩

/-- the program, if the underlying `Write` does not fail, in comparison to the same program which writes the value with individual method calls -/
theorem ser_ideal (hv : Ok v) (hj : json v = .ok j) (hw : Ready wst wpre w) (wpost : List WOp) :
    ∃ r1, r1.length = wpre.length ∧
    ((∃ r3 c3, results wst (wpre ++ (calls j ++ wpost)) = .ok (r1 ++ (List.replicate (calls j).length (.ok .unit) ++ r3)) ∧
      ((serOps wpre v wpost).run (Core.new wst)).ideal = (.ok (.ok ⟨r1, some (.ok ()), r3⟩, c3), emitted wst (wpre ++ (calls j ++ wpost)))) ∨
    ∃ p, results wst (wpre ++ (calls j ++ wpost)) = .error p ∧ ((serOps wpre v wpost).run (Core.new wst)).ideal = (.error p, emitted wst (wpre ++ (calls j ++ wpost)))) ∧
    ((∀ op ∈ wpost, OpOk op) → FinishLast wpost → wpost.getLast? = some .finishDocument → (∀ p, results wst (wpre ++ (calls j ++ wpost)) ≠ .error p) →
      ∀ b, ((serOps wpre v wpost).run (Core.new wst)).flushed b = true) := by
  obtain ⟨r1, b1, c1, h1, h2, h3, hi, hok⟩ := ready_state hw
  have hs := serialize_ends (wst := wst) v hv hw.can
  rw [hj] at hs
  obtain ⟨b2, c2, g1, g2, g3, g4⟩ := hs c1 hi hok
  obtain ⟨h5, h6⟩ := calls_emits hi hok hw.can (json_ok hv hj) g3 g2
  have hid := serOps_ideal wpost h1 h3 g1
  refine ⟨r1, resOks_length h2, ?_, ?_⟩
  · rw [results, emitted, hid.1, wops_append hw.finish h1 h2, wops_append (calls_no_finish j) h5 h6]
    rcases ((wops wpost).run c2).ideal with ⟨p | ⟨e | r3, c3⟩, b3⟩
    · exact .inr ⟨p, rfl, rfl⟩
    · nomatch e
    · exact .inl ⟨r3, c3, rfl, rfl⟩
  · intro hop hfin hl hp b
    refine hid.2 b ?_
    cases wops_outcome wpost g3 g4 hop hfin with
    | done w' rs bs c' t1 t2 t3 t4 t5 t6 => exact t6 hl
    | panic p op post w' u bs t1 t2 t3 t4 t5 t6 =>
      exfalso
      unfold Panics at t4
      refine hp (.usage u) ?_
      rw [results, wops_append hw.finish h1 h2, wops_append (calls_no_finish j) h5 h6, t4]
      rfl

/-- C48: serializing a value writes its JSON value: the results of all calls, panics and the output are the same as if the value was written with individual calls -/
theorem C48_serialize (hN : 0 < N) (hv : Ok v) (hj : json v = .ok j) (hw : Ready wst wpre w) (hop : ∀ op ∈ wpost, OpOk op) (hfin : FinishLast wpost) (hrel : sink.Reliable) :
    (∃ r1 r3 sk sk', execW N wst sink (wpre ++ (calls j ++ wpost)) = (.ok (r1 ++ (List.replicate (calls j).length (.ok .unit) ++ r3)), sk) ∧ r1.length = wpre.length ∧
        execSer N wst sink wpre v wpost = (.ok ⟨r1, some (.ok ()), r3⟩, sk') ∧ (wpost.getLast? = some .finishDocument → sk'.received = sk.received)) ∨
      ∃ p sk sk', execW N wst sink (wpre ++ (calls j ++ wpost)) = (.error p, sk) ∧ execSer N wst sink wpre v wpost = (.error p, sk') := by
  obtain ⟨r1, hlen, hi, hf⟩ := ser_ideal hv hj hw wpost
  have hq := run_spec (quiet_serOps wpre wpost v (Core.new wst)) (new_good (s := sink) hN)
  rw [new_out] at hq
  rcases hq with ⟨q1, q2, q3, q4, q5⟩ | ⟨q1, _⟩
  rotate_left
  · exact absurd hrel q1
  rcases exec_spec hN wst sink (wpre ++ (calls j ++ wpost)) with ⟨h1, h2, h3⟩ | ⟨h1, _⟩
  rotate_left
  · exact absurd hrel h1
  unfold execSer
  rcases hi with ⟨r3, c3, i1, i2⟩ | ⟨p, i1, i2⟩
  · left
    rw [i2] at q1 q3
    have hfl : wpost.getLast? = some .finishDocument → flushedAll wst (wpre ++ (calls j ++ wpost)) := by
      intro hl
      have hlast : (wpre ++ (calls j ++ wpost)).getLast? = some .finishDocument := by rw [List.getLast?_append, List.getLast?_append, hl]; rfl
      have hop2 : ∀ op ∈ wpre ++ (calls j ++ wpost), OpOk op := by
        intro op h
        rcases List.mem_append.1 h with h | h
        · exact hw.ops op h
        · rcases List.mem_append.1 h with h | h
          · exact (calls_ok j).1 op h
          · exact hop op h
      have hne : wpost ≠ [] := by rintro rfl; cases hl
      have hfl2 : FinishLast (wpre ++ (calls j ++ wpost)) := by
        intro op h
        rw [List.dropLast_append_of_ne_nil (by simp [hne]), List.dropLast_append_of_ne_nil hne] at h
        rcases List.mem_append.1 h with h | h
        · exact fun h' => hw.finish (h' ▸ h)
        · rcases List.mem_append.1 h with h | h
          · exact fun h' => calls_no_finish j (h' ▸ h)
          · exact hfin op h
      cases run_outcome wst hop2 hfl2 with
      | done w rs s1 s2 s3 s4 s5 s6 => exact s6 hlast
      | panic pre op post w u s1 s2 s3 s4 s5 s6 _ => rw [s5] at i1; cases i1
    have hrec := fun hl => h3 (hfl hl)
    have hq5 := fun hl => q5 (hf hop hfin hl (fun p hp => by rw [i1] at hp; cases hp) _)
    clear q2 q4 q5
    generalize ((serOps wpre v wpost).run (Core.new wst)).run.run (BufSink.new N sink) = x at q1 q3 hq5 ⊢
    match x, q1, q3, hq5 with
    | .ok (.ok t, c) kk, q1, q3, hq5 =>
      injection q1 with q1
      injection q1 with q1 _
      injection q1 with q1
      subst q1
      refine ⟨r1, r3, _, kk.sink, Prod.ext (h1.trans i1) rfl, hlen, rfl, fun hl => ?_⟩
      rw [hrec hl, ← q3]
      have : kk.pos = 0 := hq5 hl
      simp [BufSink.out, stateOf, this]
    | .ok (.error e, _) _, _, _, _ => exact nomatch e
    | .err p k, q1, _, _ => cases q1
  · right
    rw [i2] at q1
    revert q1
    generalize ((serOps wpre v wpost).run (Core.new wst)).run.run (BufSink.new N sink) = x
    match x with
    | .ok (.ok t, c) kk => intro q1; cases q1
    | .ok (.error e, _) _ => exact nomatch e
    | .err p' kk =>
      intro q1
      injection q1 with q1
      subst q1
      exact ⟨p', _, kk.sink, Prod.ext (h1.trans i1) rfl, rfl⟩

/-- C48, for a complete document: the output is a document which denotes the JSON value -/
theorem C48_document (hN : 0 < N) (hv : Ok v) (hj : json v = .ok j) (hrel : sink.Reliable) :
    ∃ sk out, execSer N wst sink [] v [.finishDocument] = (.ok ⟨[], some (.ok ()), [.ok .unit]⟩, sk) ∧ sk.received = sink.received ++ out ∧ ∀ cfg, IsDoc cfg out j := by
  have hw : Ready wst [] .empty := ⟨.nil, ⟨rfl, .inl rfl⟩, nofun, nofun⟩
  have hok := json_ok hv hj
  have h2 := C48_serialize (wst := wst) (sink := sink) (wpost := [.finishDocument]) hN hv hj hw (by simp [OpOk]) (by intro op h; cases h) hrel
  have hfin : Steps wst .empty (calls j ++ [.finishDocument]) ⟨[j], [], none⟩ := steps_app (calls_steps j hok .empty ⟨rfl, .inl rfl⟩) (steps_one (.finish (by simp)))
  rcases exec_spec hN wst sink (calls j ++ [.finishDocument]) with ⟨g1, g2, g3⟩ | ⟨g1, _⟩
  rotate_left
  · exact absurd hrel g1
  cases run_outcome wst (op_ok_append (calls_ok j).1) (finish_last (calls_no_finish j)) with
  | panic pre op post w u s1 s2 s3 s4 s5 s6 _ =>
    exfalso
    rw [s1] at hfin
    obtain ⟨w1, t1, t2⟩ := steps_append.1 hfin
    cases t2 with
    | cons t3 t4 =>
      obtain ⟨w2, t5, _⟩ := step_like (steps_unique t1 s2) t3
      exact s4 ⟨w2, t5⟩
  | done w rs s1 s2 s3 s4 s5 s6 =>
    have hw' := C31_unique hfin s1
    subst hw'
    have hlast := resOks_last s4 nofun (by rintro ⟨_, _, h⟩; cases h)
    rcases h2 with ⟨r1, r3, sk, sk', t1, t2, t3, t4⟩ | ⟨p, sk, sk', t1, _⟩
    · have hr1 : r1 = [] := List.length_eq_zero_iff.1 t2
      subst hr1
      have he : execW N wst sink (calls j ++ [.finishDocument]) = (.ok (List.replicate (calls j).length (.ok .unit) ++ r3), sk) := t1
      rw [he, s3] at g1
      injection g1 with g1
      have hlen := resOks_length s4
      rw [← g1] at hlen hlast
      have hr3 : r3 = [.ok .unit] := by
        match r3, hlen, hlast with
        | [x], _, hlast =>
          rw [List.getLast?_concat] at hlast
          injection hlast with hlast
          rw [hlast]
        | [], hlen, _ => simp at hlen
        | _ :: _ :: _, hlen, _ => simp at hlen
      subst hr3
      refine ⟨sk', (WSpec.topsBytes wst [j]), t3, ?_, ?_⟩
      · rw [t4 rfl]
        have := g3 (s6 (by simp))
        rw [he] at this
        rw [this, s5, bytes_complete]
      · have : WSpec.topsBytes wst [j] = (WSpec.cst wst 0 j).bytes := by simp [WSpec.topsBytes]
        rw [this]
        exact fun cfg => WSpec.isDoc_cst j hok
    · have he : execW N wst sink (calls j ++ [.finishDocument]) = (.error p, sk) := t1
      rw [he, s3] at g1
      cases g1

/-- C48, a value without JSON value: the error is returned (and there is no panic) -/
theorem C48_error (hN : 0 < N) (hv : Ok v) (hj : json v = .error e) (hw : Ready wst wpre w) (hrel : sink.Reliable) :
    ∃ r1 sk, execSer N wst sink wpre v wpost = (.ok ⟨r1, some (.error e), []⟩, sk) ∧ r1.length = wpre.length := by
  obtain ⟨r1, b1, c1, h1, h2, h3, hi, hok⟩ := ready_state hw
  have hs := serialize_ends (wst := wst) v hv hw.can
  rw [hj] at hs
  obtain ⟨b2, c2, w2, g1, g2, g3, g4⟩ := hs c1 hi hok
  have hid := serOps_fails wpost h1 h3 g1
  have hq := run_spec (quiet_serOps wpre wpost v (Core.new wst)) (new_good (s := sink) hN)
  rcases hq with ⟨q1, _⟩ | ⟨q1, _⟩
  rotate_left
  · exact absurd hrel q1
  rw [hid] at q1
  unfold execSer
  generalize ((serOps wpre v wpost).run (Core.new wst)).run.run (BufSink.new N sink) = x at q1 ⊢
  match x, q1 with
  | .ok (.ok t, c) kk, q1 =>
    injection q1 with q1
    injection q1 with q1 _
    injection q1 with q1
    subst q1
    exact ⟨r1, kk.sink, rfl, resOks_length h2⟩
  | .ok (.error e, _) _, _ => exact nomatch e
  | .err p k, q1 => cases q1

/-- C48, for an underlying `Write` which may fail: serializing does not panic; a panic is caused by the calls afterwards, as if the value was written with individual calls -/
theorem C48_any_sink (hN : 0 < N) (hv : Ok v) (hw : Ready wst wpre w) (hs : ¬ HasString wpre) (hs' : ¬ HasString wpost) {p : WPanic} (h : (execSer N wst sink wpre v wpost).1 = .error p) :
    ∃ j, json v = .ok j ∧ results wst (wpre ++ (calls j ++ wpost)) = .error p := by
  have hq := run_spec_panics (quiet_serOps wpre wpost v (Core.new wst)) (new_good (s := sink) hN)
  have hi : ((serOps wpre v wpost).run (Core.new wst)).ideal.1 = .error p := by
    unfold execSer at h
    revert h hq
    generalize ((serOps wpre v wpost).run (Core.new wst)) = t
    generalize t.run.run (BufSink.new N sink) = r
    intro h hq
    match r, hq, h with
    | .ok (.ok rs, _) k, _, h => cases h
    | .ok (.error e, _) _, _, _ => exact nomatch e
    | .err p' k, hq, h =>
      cases h
      rcases hq with ⟨q1, _⟩ | ⟨_, _, _, q⟩
      · rw [← q1]; rfl
      · obtain ⟨b, hb⟩ := q (by rintro (h | h); exact hs h; exact hs' h)
        cases hb
  cases hj : json v with
  | ok j =>
    obtain ⟨r1, hlen, hi', _⟩ := ser_ideal hv hj hw wpost
    rcases hi' with ⟨_, _, _, h⟩ | ⟨p', h1, h⟩
    · rw [h] at hi; cases hi
    · rw [h] at hi; cases hi; exact ⟨j, rfl, h1⟩
  | error e =>
    exfalso
    obtain ⟨r1, b1, c1, h1, h2, h3, hi', hok⟩ := ready_state hw
    have hs := serialize_ends (wst := wst) v hv hw.can
    rw [hj] at hs
    obtain ⟨b2, c2, w2, g1, g2, g3, g4⟩ := hs c1 hi' hok
    rw [serOps_fails wpost h1 h3 g1] at hi
    cases hi

/-- C48, for an underlying `Write` which may fail: serializing fails if the value has no JSON value, and otherwise only with an IO error of the underlying `Write`. The
underlying `Write` has received the beginning of the output. -/
theorem C48_failing_sink (hN : 0 < N) (hv : Ok v) (hj : json v = .ok j) (hw : Ready wst wpre w) :
    (execSer N wst sink wpre v wpost).2.received <+: sink.received ++ emitted wst (wpre ++ (calls j ++ wpost)) ∧
      ∀ t, (execSer N wst sink wpre v wpost).1 = .ok t → (t.ser = some (.ok ()) ∧ results wst (wpre ++ (calls j ++ wpost)) = .ok (t.pre ++ (List.replicate (calls j).length (.ok .unit) ++ t.post))) ∨
        ¬ sink.Reliable ∧ ((Reported t.pre ∧ t.ser = none) ∨ (∃ e, t.ser = some (.error (.io e)) ∧ e.isIo = true) ∨ Reported t.post) := by
  obtain ⟨r1, hlen, hi, hf⟩ := ser_ideal hv hj hw wpost
  have hq := run_spec (quiet_serOps wpre wpost v (Core.new wst)) (new_good (s := sink) hN)
  rw [new_out] at hq
  have hi2 : ((serOps wpre v wpost).run (Core.new wst)).ideal.2 = emitted wst (wpre ++ (calls j ++ wpost)) := by
    rcases hi with ⟨_, _, _, h⟩ | ⟨_, _, h⟩ <;> rw [h]
  rw [hi2] at hq
  unfold execSer
  generalize ((serOps wpre v wpost).run (Core.new wst)).run.run (BufSink.new N sink) = x at hq ⊢
  match x, hq with
  | .ok (.error e, _) _, _ => exact nomatch e
  | .err p kk, hq =>
    refine ⟨?_, nofun⟩
    rcases hq with ⟨_, _, q3, _⟩ | ⟨_, _, q3⟩
    · rw [← q3]; exact List.prefix_append ..
    · exact q3
  | .ok (.ok t, c) kk, hq =>
    refine ⟨?_, ?_⟩
    · rcases hq with ⟨_, _, q3, _⟩ | ⟨_, _, q3⟩
      · rw [← q3]; exact List.prefix_append ..
      · exact q3
    · rintro _ ⟨⟩
      rcases hq with ⟨q1, _⟩ | ⟨q1, q2, _⟩
      · left
        rcases hi with ⟨r3, c3, i1, i2⟩ | ⟨_, _, i2⟩
        · rw [i2] at q1
          injection q1 with q1
          injection q1 with q1 _
          injection q1 with q1
          subst q1
          exact ⟨rfl, i1⟩
        · rw [i2] at q1; cases q1
      · right
        obtain ⟨t', h1, h2⟩ := q2 _ rfl
        cases h1
        exact ⟨q1, h2⟩

/-! ## Number of elements -/

/-- A compound value which contains `actual` elements (all of them can be serialized), with a different announced number of elements -/
inductive WrongCount : SVal → Nat → Nat → Prop
  | seq {n : Nat} {vs : List SVal} : vs.length ≠ n → (∀ v ∈ vs, ∃ j, json v = .ok j) → WrongCount (.seq (some n) vs) n vs.length
  | tuple {n : Nat} {vs : List SVal} : vs.length ≠ n → (∀ v ∈ vs, ∃ j, json v = .ok j) → WrongCount (.tuple n vs) n vs.length
  | tupleStruct {n : Nat} {vs : List SVal} : vs.length ≠ n → (∀ v ∈ vs, ∃ j, json v = .ok j) → WrongCount (.tupleStruct n vs) n vs.length
  | tupleVariant {name : Text} {n : Nat} {vs : List SVal} : vs.length ≠ n → (∀ v ∈ vs, ∃ j, json v = .ok j) → WrongCount (.tupleVariant name n vs) n vs.length
  | map {n : Nat} {ms : List (SVal × SVal)} : ms.length ≠ n → (∀ m ∈ ms, (∃ t, keyText m.1 = .ok t) ∧ ∃ j, json m.2 = .ok j) →
      WrongCount (.map (some n) (ms.flatMap fun m => [.key m.1, .value m.2])) n ms.length
  | struct {n : Nat} {fs : List (Text × SVal)} : fs.length ≠ n → (∀ f ∈ fs, ∃ j, json f.2 = .ok j) → WrongCount (.struct n fs) n fs.length
  | structVariant {name : Text} {n : Nat} {fs : List (Text × SVal)} : fs.length ≠ n → (∀ f ∈ fs, ∃ j, json f.2 = .ok j) → WrongCount (.structVariant name n fs) n fs.length

theorem sequence_ok {α : Type} {rs : List (Except SerErr α)} (h : ∀ r ∈ rs, ∃ a, r = .ok a) : ∃ as, sequence rs = .ok as := by
  induction rs with
  | nil => exact ⟨_, rfl⟩
  | cons r rs ih =>
    obtain ⟨a, rfl⟩ := h r (List.mem_cons_self ..)
    obtain ⟨as, has⟩ := ih fun r hr => h r (List.mem_cons_of_mem _ hr)
    rw [sequence, has]
    exact ⟨_, rfl⟩

theorem counted_wrong {α : Type} {rs : List (Except SerErr α)} {n : Nat} (hn : rs.length ≠ n) (h : ∀ r ∈ rs, ∃ a, r = .ok a) : counted n rs = .error (.incorrectElementsCount n (min rs.length (n + 1))) := by
  obtain ⟨as, has⟩ := sequence_ok (rs := rs.take n) fun r hr => h r (List.mem_of_mem_take hr)
  unfold counted
  rw [has]
  dsimp only
  rw [if_neg hn]

theorem jsons_eq (vs : List SVal) : jsons vs = vs.map json := by
  induction vs with
  | nil => rw [jsons]; rfl
  | cons v vs ih => rw [jsons, ih]; rfl

theorem fields_eq (fs : List (Text × SVal)) : fields fs = fs.map fun f => (json f.2).map (f.1, ·) := by
  induction fs with
  | nil => rw [fields]; rfl
  | cons f fs ih => obtain ⟨n, v⟩ := f; rw [fields, ih]; rfl

theorem entries_eq (ms : List (SVal × SVal)) : entries (ms.flatMap fun m => [.key m.1, .value m.2]) = ms.map fun m => pair (keyText m.1) (json m.2) := by
  induction ms with
  | nil => rw [List.flatMap_nil, entries]; rfl; all_goals nofun
  | cons m ms ih =>
    rw [List.flatMap_cons]
    show entries (.key m.1 :: .value m.2 :: (ms.flatMap fun m => [.key m.1, .value m.2])) = _
    rw [entries, ih]
    rfl

theorem wrongCount_json {n m : Nat} (h : WrongCount v n m) : json v = .error (.incorrectElementsCount n (min m (n + 1))) := by
  have hvs : ∀ {vs : List SVal}, vs.length ≠ n → (∀ v ∈ vs, ∃ j, json v = .ok j) → counted n (jsons vs) = .error (.incorrectElementsCount n (min vs.length (n + 1))) := by
    intro vs h1 h2
    have := counted_wrong (rs := jsons vs) (n := n) (by rw [jsons_eq, List.length_map]; exact h1) (by
      rw [jsons_eq]; intro r hr; obtain ⟨v, hv, rfl⟩ := List.mem_map.1 hr; exact h2 v hv)
    rw [this, jsons_eq, List.length_map]
  have hfs : ∀ {fs : List (Text × SVal)}, fs.length ≠ n → (∀ f ∈ fs, ∃ j, json f.2 = .ok j) → counted n (fields fs) = .error (.incorrectElementsCount n (min fs.length (n + 1))) := by
    intro fs h1 h2
    have := counted_wrong (rs := fields fs) (n := n) (by rw [fields_eq, List.length_map]; exact h1) (by
      rw [fields_eq]; intro r hr; obtain ⟨f, hf, rfl⟩ := List.mem_map.1 hr; obtain ⟨j, hj⟩ := h2 f hf; rw [hj]; exact ⟨_, rfl⟩)
    rw [this, fields_eq, List.length_map]
  cases h with
  | seq h1 h2 => rw [json, countedOpt, hvs h1 h2]; rfl
  | tuple h1 h2 => rw [json, hvs h1 h2]; rfl
  | tupleStruct h1 h2 => rw [json, hvs h1 h2]; rfl
  | tupleVariant h1 h2 => rw [json, hvs h1 h2]; rfl
  | map h1 h2 =>
    rw [json, countedOpt, entries_eq, counted_wrong (by rw [List.length_map]; exact h1) (by
      intro r hr
      obtain ⟨m, hm, rfl⟩ := List.mem_map.1 hr
      obtain ⟨⟨t, ht⟩, j, hj⟩ := h2 m hm
      rw [ht, hj]
      exact ⟨_, rfl⟩), List.length_map]
    rfl
  | struct h1 h2 => rw [json, hfs h1 h2]; rfl
  | structVariant h1 h2 => rw [json, hfs h1 h2]; rfl

/-- C48: a number of elements which does not match the announced one is always reported; additional elements are noticed at the first one of them -/
theorem C48_count (hN : 0 < N) {n m : Nat} (hv : Ok v) (h : WrongCount v n m) (hw : Ready wst wpre w) (hrel : sink.Reliable) :
    ∃ r1 sk, execSer N wst sink wpre v wpost = (.ok ⟨r1, some (.error (.incorrectElementsCount n (min m (n + 1)))), []⟩, sk) :=
  (C48_error hN hv (wrongCount_json h) hw hrel).imp fun _ h => h.imp fun _ h => h.1

/-! ## Map keys -/

/-- Keys which are supported, with their string form -/
inductive IsKey : SVal → Text → Prop
  | str (t : Text) : IsKey (.str t) t
  | char (c : Char) : IsKey (.char c) [c]
  | bool_true : IsKey (.bool true) ['t', 'r', 'u', 'e']
  | bool_false : IsKey (.bool false) ['f', 'a', 'l', 's', 'e']
  | int (ty : IntTy) (i : Int) : IsKey (.int ty i) (toString i).toList
  | float (t : Text) : IsKey (.float ⟨true, t⟩) t
  | unitVariant (name : Text) : IsKey (.unitVariant name) name
  | some {v : SVal} {t : Text} : IsKey v t → IsKey (.some v) t
  | newtypeStruct {v : SVal} {t : Text} : IsKey v t → IsKey (.newtypeStruct v) t

/-- Values which cannot be converted to a string for other reasons: non-finite numbers, and implementations of `Serialize` which fail themselves -/
inductive BrokenKey : SVal → SerErr → Prop
  | float (t : Text) : BrokenKey (.float ⟨false, t⟩) .invalidNumber
  | custom (msg : Text) : BrokenKey (.custom msg) (.custom msg)
  | some {v : SVal} {e : SerErr} : BrokenKey v e → BrokenKey (.some v) e
  | newtypeStruct {v : SVal} {e : SerErr} : BrokenKey v e → BrokenKey (.newtypeStruct v) e

theorem decimal_toString (i : Int) : decimal i = (toString i).toList := by
  unfold decimal
  cases i with
  | ofNat n =>
    rw [if_neg (by simp)]
    show _ = (Nat.repr n).toList
    simp [Nat.repr]
  | negSucc n =>
    rw [if_pos (Int.negSucc_lt_zero n)]
    show _ = ("-" ++ Nat.repr (n + 1)).toList
    simp [Nat.repr]

theorem isKey_text {k : SVal} {t : Text} (h : IsKey k t) : keyText k = .ok t := by
  induction h with
  | int ty i => rw [keyText, decimal_toString]
  | some _ ih => rw [keyText]; exact ih
  | newtypeStruct _ ih => rw [keyText]; exact ih
  | _ => rfl

theorem brokenKey_text {k : SVal} {e : SerErr} (h : BrokenKey k e) : keyText k = .error e := by
  induction h with
  | some _ ih => rw [keyText]; exact ih
  | newtypeStruct _ ih => rw [keyText]; exact ih
  | _ => rfl

theorem key_cases : (k : SVal) → (∃ t, IsKey k t) ∨ (∃ e, BrokenKey k e) ∨ keyText k = .error .mapKeyNotString
  | .bool true => .inl ⟨_, .bool_true⟩
  | .bool false => .inl ⟨_, .bool_false⟩
  | .int ty i => .inl ⟨_, .int ty i⟩
  | .float ⟨true, t⟩ => .inl ⟨_, .float t⟩
  | .float ⟨false, t⟩ => .inr (.inl ⟨_, .float t⟩)
  | .char c => .inl ⟨_, .char c⟩
  | .str t => .inl ⟨_, .str t⟩
  | .unitVariant t => .inl ⟨_, .unitVariant t⟩
  | .custom msg => .inr (.inl ⟨_, .custom msg⟩)
  | .some v => (key_cases v).imp (Exists.imp fun _ => .some) (Or.imp (Exists.imp fun _ => .some) fun h => by rw [keyText]; exact h)
  | .newtypeStruct v => (key_cases v).imp (Exists.imp fun _ => .newtypeStruct) (Or.imp (Exists.imp fun _ => .newtypeStruct) fun h => by rw [keyText]; exact h)
  | .bytes _ => .inr (.inr rfl)
  | .none => .inr (.inr rfl)
  | .unit => .inr (.inr rfl)
  | .unitStruct => .inr (.inr rfl)
  | .newtypeVariant _ _ => .inr (.inr rfl)
  | .seq _ _ => .inr (.inr rfl)
  | .tuple _ _ => .inr (.inr rfl)
  | .tupleStruct _ _ => .inr (.inr rfl)
  | .tupleVariant _ _ _ => .inr (.inr rfl)
  | .map _ _ => .inr (.inr rfl)
  | .struct _ _ => .inr (.inr rfl)
  | .structVariant _ _ _ => .inr (.inr rfl)

/-- a map which consists of the entries `ms` and one more entry -/
def mapWith (len : Option Nat) (ms : List (SVal × SVal)) (k x : SVal) : SVal := .map len ((ms ++ [(k, x)]).flatMap fun m => [.key m.1, .value m.2])

theorem ok_entries {ms : List (SVal × SVal)} (h : ∀ m ∈ ms, Ok m.1 ∧ Ok m.2) : OkEntries (ms.flatMap fun m => [.key m.1, .value m.2]) := by
  induction ms with
  | nil => rw [List.flatMap_nil, OkEntries]; trivial; all_goals nofun
  | cons m ms ih =>
    rw [List.flatMap_cons]
    show OkEntries (.key m.1 :: .value m.2 :: _)
    rw [OkEntries]
    have := h m (List.mem_cons_self ..)
    exact ⟨this.1, this.2, ih fun m hm => h m (List.mem_cons_of_mem _ hm)⟩

theorem sequence_append {α : Type} {rs : List (Except SerErr α)} {as : List α} (h : sequence rs = .ok as) (r : Except SerErr α) : sequence (rs ++ [r]) = r.map fun a => as ++ [a] := by
  induction rs generalizing as with
  | nil => cases h; cases r <;> rfl
  | cons x rs ih =>
    cases x with
    | error e => cases h
    | ok a =>
      rw [sequence] at h
      cases hs : sequence rs with
      | error e => rw [hs] at h; cases h
      | ok as' =>
        rw [hs] at h
        cases h
        rw [List.cons_append, sequence, ih hs]
        cases r <;> rfl

/-- the JSON value of a map, depending on its last entry -/
theorem mapWith_json {len : Option Nat} {ms : List (SVal × SVal)} {js : List (Text × JVal)} {k x : SVal} (hms : sequence (ms.map fun m => pair (keyText m.1) (json m.2)) = .ok js)
    (hlen : ∀ n, len = some n → n = ms.length + 1) : json (mapWith len ms k x) = (pair (keyText k) (json x)).map fun m => .obj (js ++ [m]) := by
  unfold mapWith
  rw [json, entries_eq, List.map_append]
  have hs := sequence_append hms (pair (keyText k) (json x))
  cases len with
  | none =>
    show Except.map _ (sequence (_ ++ [_])) = _
    rw [hs]
    cases pair (keyText k) (json x) <;> rfl
  | some n =>
    have hn := hlen n rfl
    show Except.map _ (counted n (_ ++ [_])) = _
    unfold counted
    have hl : (List.map (fun m => pair (keyText m.1) (json m.2)) ms ++ [pair (keyText k) (json x)]).length = n := by simp [hn]
    rw [List.take_of_length_le (by rw [hl]; exact Nat.le_refl _), hs]
    cases pair (keyText k) (json x) with
    | error e => rfl
    | ok m =>
      dsimp only [Except.map]
      rw [if_pos hl]

/-- C49: a key which is (possibly inside of `Some` or a newtype) a string, character, boolean, number or unit variant is accepted, and the name of the member is its
string form. The entry may be preceded by other ones. -/
theorem C49_key (hN : 0 < N) {len : Option Nat} {ms : List (SVal × SVal)} {js : List (Text × JVal)} {k x : SVal} {t : Text} {y : JVal} (homs : ∀ m ∈ ms, Ok m.1 ∧ Ok m.2) (hok : Ok k) (hox : Ok x)
    (hms : sequence (ms.map fun m => pair (keyText m.1) (json m.2)) = .ok js) (hlen : ∀ n, len = some n → n = ms.length + 1) (hk : IsKey k t) (hx : json x = .ok y) (hrel : sink.Reliable) :
    ∃ sk out, execSer N wst sink [] (mapWith len ms k x) [.finishDocument] = (.ok ⟨[], some (.ok ()), [.ok .unit]⟩, sk) ∧ sk.received = sink.received ++ out ∧
      ∀ cfg, IsDoc cfg out (.obj (js ++ [(t, y)])) := by
  refine C48_document hN ?_ ?_ hrel
  · exact ok_entries (by
      intro m hm
      rcases List.mem_append.1 hm with hm | hm
      · exact homs m hm
      · rw [List.mem_singleton.1 hm]; exact ⟨hok, hox⟩)
  · rw [mapWith_json hms hlen, isKey_text hk, hx]
    rfl

/-- C49: every other key is rejected: with `MapKeyNotString`, except for non-finite numbers and keys whose own implementation of `Serialize` fails. -/
theorem C49_no_key (hN : 0 < N) {len : Option Nat} {ms : List (SVal × SVal)} {js : List (Text × JVal)} {k x : SVal} (homs : ∀ m ∈ ms, Ok m.1 ∧ Ok m.2) (hok : Ok k) (hox : Ok x)
    (hms : sequence (ms.map fun m => pair (keyText m.1) (json m.2)) = .ok js) (hlen : ∀ n, len = some n → n = ms.length + 1) (hk : ¬ ∃ t, IsKey k t) (hw : Ready wst wpre w) (hrel : sink.Reliable) :
    ∃ r1 e sk, execSer N wst sink wpre (mapWith len ms k x) wpost = (.ok ⟨r1, some (.error e), []⟩, sk) ∧ (e = .mapKeyNotString ∨ BrokenKey k e) := by
  have hv : Ok (mapWith len ms k x) := ok_entries (by
      intro m hm
      rcases List.mem_append.1 hm with hm | hm
      · exact homs m hm
      · rw [List.mem_singleton.1 hm]; exact ⟨hok, hox⟩)
  have hj := mapWith_json (k := k) (x := x) hms hlen
  rcases key_cases k with h | ⟨e, h⟩ | h
  · exact absurd h hk
  · rw [brokenKey_text h] at hj
    obtain ⟨r1, sk, h1, _⟩ := C48_error (wpost := wpost) hN hv hj hw hrel
    exact ⟨r1, _, sk, h1, .inr h⟩
  · rw [h] at hj
    obtain ⟨r1, sk, h1, _⟩ := C48_error (wpost := wpost) hN hv hj hw hrel
    exact ⟨r1, _, sk, h1, .inl rfl⟩

/-! ## Examples -/

/-- a struct variant with a sequence, a map with a wrapped number as key, bytes and an enum -/
def exSer : SVal := .structVariant ['v'] 3 [(['a'], .seq (some 2) [.int .i8 (-1), .newtypeStruct (.some (.str ['x']))]),
  (['b'], .map none [.key (.some (.int .u8 12)), .value .none, .key (.char 'c'), .value (.bytes [0, 255])]), (['c'], .tupleVariant ['t'] 1 [.unitVariant ['u']])]

example : Ok exSer := by simp [exSer, Ok, Oks, OkFields, OkEntries]

example : json exSer = .ok (.obj [(['v'], .obj [(['a'], .arr [.num ['-', '1'], .str ['x']]), (['b'], .obj [(['1', '2'], .null), (['c'], .arr [.num ['0'], .num ['2', '5', '5']])]),
    (['c'], .obj [(['t'], .arr [.str ['u']])])])]) := by
  rfl

/-- the output, with a short buffer -/
example : (match execSer 3 .default ⟨[], [.accept 1, .interrupted], []⟩ [] exSer [.finishDocument] with
    | (.ok ⟨[], some (.ok ()), [.ok .unit]⟩, sk) => sk.received == "{\"v\":{\"a\":[-1,\"x\"],\"b\":{\"12\":null,\"c\":[0,255]},\"c\":{\"t\":[\"u\"]}}}".toUTF8.toList
    | _ => false) = true := by
  decide +kernel

example : WrongCount (.tuple 1 [.unit, .bool true, .none]) 1 3 := .tuple (by decide) (by
  intro v hv
  simp only [List.mem_cons, List.not_mem_nil, or_false] at hv
  rcases hv with rfl | rfl | rfl <;> exact ⟨_, rfl⟩)

example : ¬ ∃ t, IsKey (.some .unit) t := by
  rintro ⟨t, ⟨⟩ | _⟩
  rename_i h
  cases h

/-- the error is reported -/
example : (match execSer 3 .default ⟨[], [], []⟩ [.beginArray] (.map (some 2) [.key (.str ['a']), .value .unit, .key .unit, .value .unit]) [.endArray] with
    | (.ok ⟨[.ok .unit], some (.error .mapKeyNotString), []⟩, _) => true
    | _ => false) = true := by
  decide +kernel

/-- a misplaced call behind `serialize_value`, and an underlying `Write` which does not fail before it -/
example : (match execSer 128 .default ⟨[], [.error 7], []⟩ [.beginArray] exSer [.endObject] with
    | (.error (.usage _), _) => true
    | _ => false) = true ∧ ¬ HasString [.beginArray] ∧ ¬ HasString [.endObject] := by
  refine ⟨by decide +kernel, ?_, ?_⟩ <;> rintro ⟨_, _, h⟩ <;> simp at h

/-- if the underlying `Write` fails before it there is no panic -/
example : (match execSer 4 .default ⟨[], [.error 7], []⟩ [.beginArray] exSer [.endObject] with
    | (.ok ⟨[.ok .unit], some (.error (.io (.io 7))), []⟩, _) => true
    | _ => false) = true := by
  decide +kernel

end Verif.Props
