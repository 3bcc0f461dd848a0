import Verif.Proofs.Transfer.Exec
import Verif.Props.Cursor
import Verif.Props.WriterStrings
import Verif.Props.Tokens
/-!
# `transfer_to` (C24)

A program which uses a reader and a writer: calls of the reader which lead to a place in a valid document (see `Verif/Props/Cursor.lean`), calls of the writer
after which a value may be written (see `Verif/Spec/Writer.lean`), `transfer_to`, and further calls of both of them.
-/

namespace Verif.Props
open Reader Writer Json Transfer
open Cursor (Cur reach)
open WSpec (Written Steps Step Rejected calls JOk JOks JOkm callsItems callsMembers Numbers calls_steps calls_no_finish jok_iff steps_app steps_one)
open Abs (RepC repC_new invT_new)

variable {N M : Nat} {st : Settings} {wst : WSettings} {sched : List ReadEvent} {bytes : Bytes} {vs : List JVal} {pre post : List Op} {k : Cur} {v : JVal}
  {wpre wpost : List WOp} {w : Written} {sink : Sink}

/-- The value at the place of the reader can be transferred -/
structure Movable (st : Settings) (k : Cur) (v : JVal) : Prop where
  can : k.canValue st.allowMultipleTopLevel = true
  next : k.next = some v
  depth : k.tooDeep st.maxNestingDepth (Cursor.depth v) = none
  numbers : st.restrictNumberValues = true → ∀ t ∈ Cursor.numbers v, Cursor.unsupportedNumber t = false

/-- The calls lead to a state in which the writer accepts a value -/
structure Ready (wst : WSettings) (wpre : List WOp) (w : Written) : Prop where
  steps : Steps wst .empty wpre w
  can : w.CanAdd wst
  finish : .finishDocument ∉ wpre
  ops : ∀ op ∈ wpre, OpOk op

mutual
theorem calls_accepted : (v : JVal) → JOk v → ∀ op ∈ calls v, ¬ Rejected op
  | .null, _ => by rw [calls]; simp only [List.mem_singleton]; rintro _ rfl ⟨⟩
  | .bool b, _ => by rw [calls]; simp only [List.mem_singleton]; rintro _ rfl ⟨⟩
  | .num t, h => by rw [calls]; simp only [List.mem_singleton]; rintro _ rfl (⟨⟩ | ⟨_, hn⟩); exact hn h
  | .str t, _ => by rw [calls]; simp only [List.mem_singleton]; rintro _ rfl ⟨⟩
  | .arr vs, h => by
    rw [calls]
    intro op hop
    rcases List.mem_cons.1 hop with rfl | hop
    · rintro ⟨⟩
    · rcases List.mem_append.1 hop with hop | hop
      · exact callsItems_accepted vs h op hop
      · rw [List.mem_singleton.1 hop]; rintro ⟨⟩
  | .obj ms, h => by
    rw [calls]
    intro op hop
    rcases List.mem_cons.1 hop with rfl | hop
    · rintro ⟨⟩
    · rcases List.mem_append.1 hop with hop | hop
      · exact callsMembers_accepted ms h op hop
      · rw [List.mem_singleton.1 hop]; rintro ⟨⟩
theorem callsItems_accepted : (vs : List JVal) → JOks vs → ∀ op ∈ callsItems vs, ¬ Rejected op
  | [], _ => by rw [callsItems]; nofun
  | v :: vs, h => by
    rw [callsItems]
    intro op hop
    rcases List.mem_append.1 hop with hop | hop
    · exact calls_accepted v h.1 op hop
    · exact callsItems_accepted vs h.2 op hop
theorem callsMembers_accepted : (ms : List (Text × JVal)) → JOkm ms → ∀ op ∈ callsMembers ms, ¬ Rejected op
  | [], _ => by rw [callsMembers]; nofun
  | (n, v) :: ms, h => by
    rw [callsMembers]
    intro op hop
    rcases List.mem_cons.1 hop with rfl | hop
    · rintro ⟨⟩
    · rcases List.mem_append.1 hop with hop | hop
      · exact calls_accepted v h.1 op hop
      · exact callsMembers_accepted ms h.2 op hop
end

theorem resOks_units {ops : List WOp} {rs : List (Except WErr WOut)} (h : ResOks ops rs) (hr : ∀ op ∈ ops, ¬ Rejected op) (hs : ∀ op ∈ ops, ¬ ∃ ops fin, op = .stringValueWriter ops fin) :
    rs = List.replicate ops.length (.ok .unit) := by
  induction ops generalizing rs with
  | nil =>
    match rs, h with
    | [], _ => rfl
  | cons o os ih =>
    match rs, h with
    | r :: rs, h =>
      rw [ih h.2 (fun op h => hr op (List.mem_cons_of_mem _ h)) (fun op h => hs op (List.mem_cons_of_mem _ h)), List.length_cons, List.replicate_succ]
      rcases h.1 with h1 | ⟨_, out, h2, h3⟩
      · exact absurd h1.1 (hr o (List.mem_cons_self ..))
      · subst h2
        rcases h3 with h4 | h4
        · subst h4; rfl
        · exact absurd h4 (hs o (List.mem_cons_self ..))

/-- the program, if the underlying `Write` does not fail, in comparison to the same program which writes the value with individual method calls -/
def Moves (N : Nat) (st : Settings) (sched : List ReadEvent) (pre post : List Op) (M : Nat) (wst : WSettings) (wpre : List WOp) (w : Written) (v : JVal) : Prop :=
    ∃ (s s' : RState AbsSrc) (r1 : List (Except WErr WOut)) (b1 b2 : Bytes) (c1 c2 : Core), Numbers IsNumber v ∧
      (∀ wpost sink, runTransfer N st sched pre post M wst sink wpre wpost = finishRun post (((transferOps wpre wpost s).run (Core.new wst)).run.run (BufSink.new M sink))) ∧
      runReader N st sched (pre ++ .skipValue :: post) = runReader N st sched pre ++ .ok .unit :: runOps post s' ∧
      Emits (wops wpre) (Core.new wst) b1 r1 c1 ∧ ResOks wpre r1 ∧ r1.any callFailed = false ∧ Emits transferTo (s, c1) b2 () (s', c2) ∧
      Emits (wops (calls v)) c1 b2 (List.replicate (calls v).length (.ok .unit)) c2 ∧ ResOks (calls v) (List.replicate (calls v).length (.ok .unit)) ∧
      WInv wst c2 (w.add v) ∧ WOk wst (w.add v)

theorem moves_of {s s' : RState AbsSrc} (hN : 0 < N) (hd : Delivers sched bytes none) (hsa : stateAfter pre (new (⟨bytes, none, []⟩ : AbsSrc) st) = some s)
    (h4 : ∀ tail, runOps (pre ++ tail) (new (⟨bytes, none, []⟩ : AbsSrc) st) = runOps pre (new (⟨bytes, none, []⟩ : AbsSrc) st) ++ runOps tail s)
    (g1 : Reader.skipValue.run s = .ok () s') (g2 : JOk v)
    (hT : ∀ c1, WInv wst c1 w → WOk wst w → w.CanAdd wst → ∃ bs c2, WInv wst c2 (w.add v) ∧ (w.add v).bytes wst = w.bytes wst ++ bs ∧ Emits transferTo (s, c1) bs () (s', c2))
    (hw : Ready wst wpre w) : Moves N st sched pre post M wst wpre w v := by
  obtain ⟨c1, r1, w', hl, hok, hi, hres, he, hb⟩ := Writer.reach wst hw.finish hw.ops hw.steps
  have hww := like_eq hl hw.can.1
  subst hww
  obtain ⟨bs, c2, g3, g4, g5⟩ := hT c1 hi hok hw.can
  have hcalls := calls_steps (st := wst) v g2 w hw.can
  have hws : (w.add v).str = none := by rw [add_str]; exact hw.can.1
  have hdir : Emits (wops (calls v)) c1 bs (List.replicate (calls v).length (.ok .unit)) c2 ∧ ResOks (calls v) (List.replicate (calls v).length (.ok .unit)) := by
    cases wops_outcome (calls v) hi hok (calls_ok v).1 (fun op hop h => calls_no_finish v (h ▸ List.dropLast_subset _ hop)) with
    | done w2 rs bs2 c3 t1 t2 t3 t4 t5 t6 =>
      have hw2 := like_eq (steps_unique hcalls t1) hws
      subst hw2
      have := t4.unique g3 hws
      subst this
      rw [t3] at g4
      have := List.append_cancel_left g4
      subst this
      have := resOks_units t5 (calls_accepted v g2) (calls_ok v).2
      subst this
      exact ⟨t2, t5⟩
    | panic p op post w2 u bs2 t1 t2 t3 t4 t5 t6 =>
      exfalso
      rw [t1] at hcalls
      obtain ⟨w1, r1, r2⟩ := steps_append.1 hcalls
      cases r2 with
      | cons r3 r4 =>
        obtain ⟨w2, r5, _⟩ := step_like (steps_unique r1 t2) r3
        exact t3 ⟨w2, r5⟩
  refine ⟨s, s', r1, _, bs, c1, c2, (jok_iff v).1 g2, ?_, ?_, he, hres, clean_wops wpre (WInv.new wst) (WOk.empty wst) hw.ops hw.finish hw.steps hw.can.1 he hres, g5, hdir.1, hdir.2, g3, hok.add hw.can g2⟩
  · intro wpost sink
    rw [runTransfer_abs hN, (delivers_sched hd).1, (delivers_sched hd).2]
    unfold runTransferAbs
    rw [hsa]
  · rw [runReader_abs hN hd, runReader_abs hN hd]
    show runOps (pre ++ .skipValue :: post) _ = runOps pre _ ++ _
    rw [h4]
    congr 1
    rw [runOps]
    have : (runOp .skipValue : R AbsSrc Out).run s = .ok .unit s' := _root_.Verif.M.bind_ok g1
    rw [this]
    rfl

theorem transfer_state (hN : 0 < N) (hd : Delivers sched bytes none) (hv : Valid st bytes vs) (hr : reach st pre (.init vs) = some k) (hm : Movable st k v) (hw : Ready wst wpre w) :
    Moves N st sched pre post M wst wpre w v := by
  obtain ⟨hmt, t, hokt, rfl, rfl⟩ := hv
  obtain ⟨s, h1, h2, h3, h4, _, _, h5⟩ := Abs.reach_state pre (repC_new (st := st) hokt hmt) ⟨_, _, invT_new t.bytes none⟩ hr
  obtain ⟨s', g1, g2, _⟩ := RepC.transferTo (wst := .default) (wc := Core.new .default) (w := .empty) h1 hm.can hm.next hm.depth hm.numbers (WInv.new _) (WOk.empty _) ⟨rfl, .inl rfl⟩
  refine moves_of hN hd (stateAfter_of pre (reach_no_trailing pre hr) (h5 Unit (.ret ()))) h4 g1 g2 (fun c1 hi hok hc => ?_) hw
  obtain ⟨s2, g3, _, h6⟩ := RepC.transferTo (wst := wst) h1 hm.can hm.next hm.depth hm.numbers hi hok hc
  rw [g1] at g3
  cases g3
  exact h6

/-- what the program emits is what the individual calls emit -/
theorem transfer_ideal {s s' : RState AbsSrc} {r1 : List (Except WErr WOut)} {b1 b2 : Bytes} {c1 c2 : Core} (hfin : .finishDocument ∉ wpre) (h1 : Emits (wops wpre) (Core.new wst) b1 r1 c1) (h2 : ResOks wpre r1)
    (h3 : r1.any callFailed = false) (h4 : Emits transferTo (s, c1) b2 () (s', c2)) (h5 : Emits (wops (calls v)) c1 b2 (List.replicate (calls v).length (.ok .unit)) c2)
    (h6 : ResOks (calls v) (List.replicate (calls v).length (.ok .unit))) (wpost : List WOp) :
    (∃ r3 c3, results wst (wpre ++ (calls v ++ wpost)) = .ok (r1 ++ (List.replicate (calls v).length (.ok .unit) ++ r3)) ∧
      ((transferOps wpre wpost s).run (Core.new wst)).ideal = (.ok (.ok ⟨r1, some (.ok ()), r3, s'⟩, c3), emitted wst (wpre ++ (calls v ++ wpost)))) ∨
    ∃ p, results wst (wpre ++ (calls v ++ wpost)) = .error p ∧ ((transferOps wpre wpost s).run (Core.new wst)).ideal = (.error p, emitted wst (wpre ++ (calls v ++ wpost))) := by
  have hi := (transferOps_ideal wpost h1 h3 h4).1
  rw [results, emitted, hi, wops_append hfin h1 h2, wops_append (calls_no_finish v) h5 h6]
  rcases ((wops wpost).run c2).ideal with ⟨p | ⟨e | r3, c3⟩, b3⟩
  · exact .inr ⟨p, rfl, rfl⟩
  · nomatch e
  · exact .inl ⟨r3, c3, rfl, rfl⟩

/-- The program with `transfer_to` behaves as the one with individual method calls -/
theorem Moves.transfer (h : Moves N st sched pre post M wst wpre w v) (hM : 0 < M) (hw : Ready wst wpre w)
    (hop : ∀ op ∈ wpost, OpOk op) (hfin : FinishLast wpost) (hrel : sink.Reliable) :
    ∃ rr, runReader N st sched (pre ++ .skipValue :: post) = runReader N st sched pre ++ .ok .unit :: rr ∧
      ((∃ r1 r3 sk sk', execW M wst sink (wpre ++ (calls v ++ wpost)) = (.ok (r1 ++ (List.replicate (calls v).length (.ok .unit) ++ r3)), sk) ∧ r1.length = wpre.length ∧
          runTransfer N st sched pre post M wst sink wpre wpost = some (.ok ⟨r1, some (.ok ()), r3, rr⟩, sk') ∧
          (wpost.getLast? = some .finishDocument → sk'.received = sk.received)) ∨
        ∃ p sk sk', execW M wst sink (wpre ++ (calls v ++ wpost)) = (.error p, sk) ∧ runTransfer N st sched pre post M wst sink wpre wpost = some (.error p, sk')) := by
  obtain ⟨s, s', r1, b1, b2, c1, c2, hnum, e1, e2, e3, e4, e5, e6, e7, e8, e9, e10⟩ := h
  refine ⟨_, e2, ?_⟩
  rw [e1]
  have hq := run_spec (quiet_transferOps wpre wpost s (Core.new wst)) (new_good (s := sink) hM)
  rw [new_out] at hq
  rcases hq with ⟨q1, q2, q3, q4, q5⟩ | ⟨q1, _⟩
  rotate_left
  · exact absurd hrel q1
  rcases exec_spec hM wst sink (wpre ++ (calls v ++ wpost)) with ⟨h1, h2, h3⟩ | ⟨h1, _⟩
  rotate_left
  · exact absurd hrel h1
  rcases transfer_ideal hw.finish e3 e4 e5 e6 e7 e8 wpost with ⟨r3, c3, i1, i2⟩ | ⟨p, i1, i2⟩
  · left
    rw [i2] at q1 q3
    have hfl : wpost.getLast? = some .finishDocument → (∀ b, ((wops wpost).run c2).flushed b = true) ∧ flushedAll wst (wpre ++ (calls v ++ wpost)) := by
      intro hl
      have hlast : (wpre ++ (calls v ++ wpost)).getLast? = some .finishDocument := by rw [List.getLast?_append, List.getLast?_append, hl]; rfl
      constructor
      · cases wops_outcome wpost e9 e10 hop hfin with
        | done w' rs bs c' t1 t2 t3 t4 t5 t6 => exact t6 hl
        | panic p op post w' u bs t1 t2 t3 t4 t5 t6 =>
          exfalso
          unfold Panics at t4
          rw [results, wops_append hw.finish e3 e4, wops_append (calls_no_finish v) e7 e8, t4] at i1
          cases i1
      · have hop2 : ∀ op ∈ wpre ++ (calls v ++ wpost), OpOk op := by
          intro op h
          rcases List.mem_append.1 h with h | h
          · exact hw.ops op h
          · rcases List.mem_append.1 h with h | h
            · exact (calls_ok v).1 op h
            · exact hop op h
        have hne : wpost ≠ [] := by rintro rfl; cases hl
        have hfl2 : FinishLast (wpre ++ (calls v ++ wpost)) := by
          intro op h
          rw [List.dropLast_append_of_ne_nil (by simp [hne]), List.dropLast_append_of_ne_nil hne] at h
          rcases List.mem_append.1 h with h | h
          · exact fun h' => hw.finish (h' ▸ h)
          · rcases List.mem_append.1 h with h | h
            · exact fun h' => calls_no_finish v (h' ▸ h)
            · exact hfin op h
        cases run_outcome wst hop2 hfl2 with
        | done w rs s1 s2 s3 s4 s5 s6 => exact s6 hlast
        | panic pre op post w u s1 s2 s3 s4 s5 s6 _ => rw [s5] at i1; cases i1
    have hrec := fun hl => h3 (hfl hl).2
    have hq5 := fun hl => q5 ((transferOps_ideal wpost e3 e5 e6).2 _ (hfl hl).1)
    clear q2 q4 q5
    generalize ((transferOps wpre wpost s).run (Core.new wst)).run.run (BufSink.new M sink) = x at q1 q3 hq5 ⊢
    match x, q1, q3, hq5 with
    | .ok (.ok t, c) kk, q1, q3, hq5 =>
      injection q1 with q1
      injection q1 with q1 _
      injection q1 with q1
      subst q1
      refine ⟨r1, r3, _, kk.sink, Prod.ext (h1.trans i1) rfl, resOks_length e4, rfl, fun hl => ?_⟩
      rw [hrec hl, ← q3]
      have : kk.pos = 0 := hq5 hl
      simp [BufSink.out, stateOf, this]
    | .ok (.error e, _) _, _, _, _ => exact nomatch e
    | .err p k, q1, _, _ => cases q1
  · right
    rw [i2] at q1
    revert q1
    generalize ((transferOps wpre wpost s).run (Core.new wst)).run.run (BufSink.new M sink) = x
    match x with
    | .ok (.ok t, c) kk => intro q1; cases q1
    | .ok (.error e, _) _ => exact nomatch e
    | .err p' kk =>
      intro q1
      injection q1 with q1
      subst q1
      exact ⟨p', _, kk.sink, Prod.ext (h1.trans i1) rfl, rfl⟩

/-- C24: `transfer_to` behaves for the reader as `skip_value` (so the reader is behind the value), and for the writer as writing the value with individual calls;
the results of all calls are the same, as well as panics and the output. -/
theorem C24_transfer (hN : 0 < N) (hM : 0 < M) (hd : Delivers sched bytes none) (hv : Valid st bytes vs) (hr : reach st pre (.init vs) = some k) (hm : Movable st k v) (hw : Ready wst wpre w)
    (hop : ∀ op ∈ wpost, OpOk op) (hfin : FinishLast wpost) (hrel : sink.Reliable) :
    ∃ rr, runReader N st sched (pre ++ .skipValue :: post) = runReader N st sched pre ++ .ok .unit :: rr ∧
      ((∃ r1 r3 sk sk', execW M wst sink (wpre ++ (calls v ++ wpost)) = (.ok (r1 ++ (List.replicate (calls v).length (.ok .unit) ++ r3)), sk) ∧ r1.length = wpre.length ∧
          runTransfer N st sched pre post M wst sink wpre wpost = some (.ok ⟨r1, some (.ok ()), r3, rr⟩, sk') ∧
          (wpost.getLast? = some .finishDocument → sk'.received = sk.received)) ∨
        ∃ p sk sk', execW M wst sink (wpre ++ (calls v ++ wpost)) = (.error p, sk) ∧ runTransfer N st sched pre post M wst sink wpre wpost = some (.error p, sk')) :=
  (transfer_state (M := M) (post := post) hN hd hv hr hm hw).transfer hM hw hop hfin hrel

theorem Moves.document (h : Moves N st sched pre post M wst [] .empty v) (hM : 0 < M) (hrel : sink.Reliable) :
    ∃ rr sk out, runReader N st sched (pre ++ .skipValue :: post) = runReader N st sched pre ++ .ok .unit :: rr ∧
      runTransfer N st sched pre post M wst sink [] [.finishDocument] = some (.ok ⟨[], some (.ok ()), [.ok .unit], rr⟩, sk) ∧
      sk.received = sink.received ++ out ∧ IsDoc .rfc out v := by
  have hw : Ready wst [] .empty := ⟨.nil, ⟨rfl, .inl rfl⟩, nofun, nofun⟩
  have h0 := h
  obtain ⟨s, s', r1, b1, b2, c1, c2, hnum, _⟩ := h0
  have hj : JOk v := (jok_iff v).2 hnum
  obtain ⟨rr, h1, h2⟩ := Moves.transfer (sink := sink) (wpost := [.finishDocument]) h hM hw (by simp [OpOk]) (by intro op h; cases h) hrel
  have hfin : Steps wst .empty (calls v ++ [.finishDocument]) ⟨[v], [], none⟩ := steps_app (calls_steps v hj .empty ⟨rfl, .inl rfl⟩) (steps_one (.finish (by simp)))
  rcases exec_spec hM wst sink (calls v ++ [.finishDocument]) with ⟨g1, g2, g3⟩ | ⟨g1, _⟩
  rotate_left
  · exact absurd hrel g1
  cases run_outcome wst (op_ok_append (calls_ok v).1) (finish_last (calls_no_finish v)) with
  | panic pre op post w u s1 s2 s3 s4 s5 s6 _ =>
    exfalso
    rw [s1] at hfin
    obtain ⟨w1, t1, t2⟩ := steps_append.1 hfin
    cases t2 with
    | cons t3 t4 =>
      obtain ⟨w2, t5, _⟩ := step_like (steps_unique t1 s2) t3
      exact s4 ⟨w2, t5⟩
  | done w rs s1 s2 s3 s4 s5 s6 =>
    have hw' := C31_unique hfin s1
    subst hw'
    have hlast := resOks_last s4 nofun (by rintro ⟨_, _, h⟩; cases h)
    rcases h2 with ⟨r1, r3, sk, sk', t1, t2, t3, t4⟩ | ⟨p, sk, sk', t1, _⟩
    · have hr1 : r1 = [] := List.length_eq_zero_iff.1 t2
      subst hr1
      have he : execW M wst sink (calls v ++ [.finishDocument]) = (.ok (List.replicate (calls v).length (.ok .unit) ++ r3), sk) := t1
      rw [he, s3] at g1
      injection g1 with g1
      have hlen := resOks_length s4
      rw [← g1] at hlen hlast
      have hr3 : r3 = [.ok .unit] := by
        match r3, hlen, hlast with
        | [x], _, hlast =>
          rw [List.getLast?_concat] at hlast
          injection hlast with hlast
          rw [hlast]
        | [], hlen, _ => simp at hlen
        | _ :: _ :: _, hlen, _ => simp at hlen
      subst hr3
      refine ⟨rr, sk', (WSpec.topsBytes wst [v]), h1, t3, ?_, ?_⟩
      · rw [t4 rfl]
        have := g3 (s6 (by simp))
        rw [he] at this
        rw [this, s5, bytes_complete]
      · have : WSpec.topsBytes wst [v] = (WSpec.cst wst 0 v).bytes := by simp [WSpec.topsBytes]
        rw [this]
        exact WSpec.isDoc_cst v hj
    · have he : execW M wst sink (calls v ++ [.finishDocument]) = (.error p, sk) := t1
      rw [he, s3] at g1
      cases g1

/-- C24, for a complete document: reading a value and writing it with `transfer_to` produces a document which denotes the value -/
theorem C24_document (hN : 0 < N) (hM : 0 < M) (hd : Delivers sched bytes none) (hv : Valid st bytes vs) (hr : reach st pre (.init vs) = some k) (hm : Movable st k v)
    (hrel : sink.Reliable) :
    ∃ rr sk out, runReader N st sched (pre ++ .skipValue :: post) = runReader N st sched pre ++ .ok .unit :: rr ∧
      runTransfer N st sched pre post M wst sink [] [.finishDocument] = some (.ok ⟨[], some (.ok ()), [.ok .unit], rr⟩, sk) ∧
      sk.received = sink.received ++ out ∧ IsDoc .rfc out v :=
  Moves.document (transfer_state hN hd hv hr hm ⟨.nil, ⟨rfl, .inl rfl⟩, nofun, nofun⟩) hM hrel

theorem Moves.failing_sink (h : Moves N st sched pre post M wst wpre w v) (hM : 0 < M) (hw : Ready wst wpre w) :
    ∃ res sk, runTransfer N st sched pre post M wst sink wpre wpost = some (res, sk) ∧ sk.received <+: sink.received ++ emitted wst (wpre ++ (calls v ++ wpost)) ∧
      ∀ t, res = .ok t → (t.transfer = some (.ok ()) ∧ results wst (wpre ++ (calls v ++ wpost)) = .ok (t.pre ++ (List.replicate (calls v).length (.ok .unit) ++ t.post))) ∨
        ¬ sink.Reliable ∧ ((Reported t.pre ∧ t.transfer = none) ∨ (∃ e, t.transfer = some (.error (.writer e)) ∧ e.isIo = true) ∨ Reported t.post) := by
  obtain ⟨s, s', r1, b1, b2, c1, c2, hnum, e1, e2, e3, e4, e5, e6, e7, e8, e9, e10⟩ := h
  rw [e1]
  have hq := run_spec (quiet_transferOps wpre wpost s (Core.new wst)) (new_good (s := sink) hM)
  rw [new_out] at hq
  have hi := transfer_ideal hw.finish e3 e4 e5 e6 e7 e8 wpost
  have hi2 : ((transferOps wpre wpost s).run (Core.new wst)).ideal.2 = emitted wst (wpre ++ (calls v ++ wpost)) := by
    rcases hi with ⟨_, _, _, h⟩ | ⟨_, _, h⟩ <;> rw [h]
  rw [hi2] at hq
  generalize ((transferOps wpre wpost s).run (Core.new wst)).run.run (BufSink.new M sink) = x at hq ⊢
  match x, hq with
  | .ok (.error e, _) _, _ => exact nomatch e
  | .err p kk, hq =>
    refine ⟨_, kk.sink, rfl, ?_, nofun⟩
    rcases hq with ⟨_, _, q3, _⟩ | ⟨_, _, q3⟩
    · rw [← q3]; exact List.prefix_append ..
    · exact q3
  | .ok (.ok t, c) kk, hq =>
    refine ⟨_, kk.sink, rfl, ?_, ?_⟩
    · rcases hq with ⟨_, _, q3, _⟩ | ⟨_, _, q3⟩
      · rw [← q3]; exact List.prefix_append ..
      · exact q3
    · rintro _ ⟨⟩
      rcases hq with ⟨q1, _⟩ | ⟨q1, q2, _⟩
      · left
        rcases hi with ⟨r3, c3, i1, i2⟩ | ⟨_, _, i2⟩
        · rw [i2] at q1
          injection q1 with q1
          injection q1 with q1 _
          injection q1 with q1
          subst q1
          exact ⟨rfl, i1⟩
        · rw [i2] at q1; cases q1
      · right
        obtain ⟨t', h1, h2⟩ := q2 _ rfl
        cases h1
        exact ⟨q1, h2⟩

theorem Moves.any_sink (h : Moves N st sched pre post M wst wpre w v) (hM : 0 < M) (hw : Ready wst wpre w) (hs : ¬ HasString wpre) (hs' : ¬ HasString wpost) {p : WPanic} {sk : Sink}
    (hp : runTransfer N st sched pre post M wst sink wpre wpost = some (.error p, sk)) : results wst (wpre ++ (calls v ++ wpost)) = .error p := by
  obtain ⟨s, s', r1, b1, b2, c1, c2, hnum, e1, e2, e3, e4, e5, e6, e7, e8, e9, e10⟩ := h
  rw [e1] at hp
  have hq := run_spec_panics (quiet_transferOps wpre wpost s (Core.new wst)) (new_good (s := sink) hM)
  have hi := transfer_ideal hw.finish e3 e4 e5 e6 e7 e8 wpost
  have hi2 : ((transferOps wpre wpost s).run (Core.new wst)).ideal.1 = .error p := by
    revert hp hq
    generalize ((transferOps wpre wpost s).run (Core.new wst)) = t
    generalize t.run.run (BufSink.new M sink) = r
    intro hp hq
    match r, hp, hq with
    | .ok (.ok rs, _) k, h, _ => cases h
    | .ok (.error e, _) _, _, _ => exact nomatch e
    | .err p' k, h, hq =>
      cases h
      rcases hq with ⟨q1, _⟩ | ⟨_, _, _, q⟩
      · rw [← q1]; rfl
      · obtain ⟨b, hb⟩ := q (by rintro (h | h); exact hs h; exact hs' h)
        cases hb
  rcases hi with ⟨_, _, _, h⟩ | ⟨p', h1, h⟩
  · rw [h] at hi2; cases hi2
  · rw [h] at hi2; cases hi2; exact h1

/-- C24, for an underlying `Write` which may fail: `transfer_to` does not panic; a panic is caused by the calls afterwards, as if the value was written with individual calls -/
theorem C24_any_sink (hN : 0 < N) (hM : 0 < M) (hd : Delivers sched bytes none) (hv : Valid st bytes vs) (hr : reach st pre (.init vs) = some k) (hm : Movable st k v) (hw : Ready wst wpre w)
    (hs : ¬ HasString wpre) (hs' : ¬ HasString wpost) {p : WPanic} {sk : Sink} (hp : runTransfer N st sched pre post M wst sink wpre wpost = some (.error p, sk)) :
    results wst (wpre ++ (calls v ++ wpost)) = .error p :=
  (transfer_state hN hd hv hr hm hw).any_sink hM hw hs hs' hp

/-- C24, for an underlying `Write` which may fail: it has received the beginning of the output; if no panic occurs either everything is as without a failure (see
`C24_transfer`), or one of the results is an IO error: of a call in front of `transfer_to` (then `transfer_to` is not called), of `transfer_to`, or of a call
behind it. -/
theorem C24_failing_sink (hN : 0 < N) (hM : 0 < M) (hd : Delivers sched bytes none) (hv : Valid st bytes vs) (hr : reach st pre (.init vs) = some k) (hm : Movable st k v) (hw : Ready wst wpre w) :
    ∃ res sk, runTransfer N st sched pre post M wst sink wpre wpost = some (res, sk) ∧ sk.received <+: sink.received ++ emitted wst (wpre ++ (calls v ++ wpost)) ∧
      ∀ t, res = .ok t → (t.transfer = some (.ok ()) ∧ results wst (wpre ++ (calls v ++ wpost)) = .ok (t.pre ++ (List.replicate (calls v).length (.ok .unit) ++ t.post))) ∨
        ¬ sink.Reliable ∧ ((Reported t.pre ∧ t.transfer = none) ∨ (∃ e, t.transfer = some (.error (.writer e)) ∧ e.isIo = true) ∨ Reported t.post) :=
  (transfer_state hN hd hv hr hm hw).failing_sink hM hw

/-- C01 for programs which use `transfer_to`, for arbitrary data: the results depend neither on how the data is split by the underlying `Read` nor on the size of
the buffer -/
theorem C01_transfer_chunking {N1 N2 : Nat} (h1 : 0 < N1) (h2 : 0 < N2) {sched1 sched2 : List ReadEvent} {data : Bytes} {e : Option Nat} (hd1 : Delivers sched1 data e) (hd2 : Delivers sched2 data e)
    (st : Settings) (pre post : List Op) (M : Nat) (wst : WSettings) (sink : Sink) (wpre wpost : List WOp) :
    runTransfer N1 st sched1 pre post M wst sink wpre wpost = runTransfer N2 st sched2 pre post M wst sink wpre wpost := by
  rw [runTransfer_abs h1, runTransfer_abs h2, (delivers_sched hd1).1, (delivers_sched hd1).2, (delivers_sched hd2).1, (delivers_sched hd2).2]

/-! ## Examples -/

/-- `[1, {"a": "b"}]`: behind `begin_array` and the first number; the writer is in an object behind a name -/
def exWpre : List WOp := [.beginObject, .name ['x'], .numberValueFromString ['0', '0']]

example : Ready .default exWpre ⟨[], [.obj [] (some ['x'])], none⟩ := by
  refine ⟨.cons (.beginObject ⟨rfl, .inl rfl⟩) (.cons .name (.cons (.rejected (.number _ ?_)) .nil)), ⟨rfl, trivial⟩, by decide, by simp [exWpre, OpOk]⟩
  decide +kernel

example : ∃ k, reach .default [.beginArray, .skipValue] (.init [exValue]) = some k ∧ Movable .default k (.obj [(['a'], .str ['b'])]) := by
  refine ⟨_, rfl, ?_, ?_, ?_, ?_⟩ <;> decide +kernel

/-- the program, with short buffers -/
example : (match runTransfer 4 .default exSched [.beginArray, .skipValue] [.endArray] 2 .default ⟨[], [.accept 1, .interrupted], []⟩ exWpre [.endObject, .finishDocument] with
    | some (.ok ⟨_, some (.ok ()), _, [.ok .unit]⟩, sk) => sk.received == [0x7B, 0x22, 0x78, 0x22, 0x3A, 0x7B, 0x22, 0x61, 0x22, 0x3A, 0x22, 0x62, 0x22, 0x7D, 0x7D]
    | _ => false) = true := by
  decide +kernel

/-- the underlying `Write` fails during `transfer_to` -/
example : (match runTransfer 4 .default exSched [.beginArray, .skipValue] [.endArray] 2 .default ⟨[], [.accept 2, .accept 2, .accept 1, .error 7], []⟩ exWpre [.endObject, .finishDocument] with
    | some (.ok ⟨_, some (.error (.writer (.io 7))), [], _⟩, sk) => sk.received == [0x7B, 0x22, 0x78, 0x22, 0x3A]
    | _ => false) = true := by
  decide +kernel

/-- a misplaced call behind `transfer_to` -/
example : (match runTransfer 4 .default exSched [.beginArray, .skipValue] [.endArray] 64 .default ⟨[], [.error 7], []⟩ exWpre [.endArray] with
    | some (.error (.usage _), _) => true
    | _ => false) = true ∧ ¬ HasString exWpre ∧ ¬ HasString [.endArray] := by
  refine ⟨by decide +kernel, ?_, ?_⟩ <;> rintro ⟨_, _, h⟩ <;> simp [exWpre] at h

end Verif.Props
