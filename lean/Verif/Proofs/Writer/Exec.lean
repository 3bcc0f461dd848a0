import Verif.Proofs.Writer.Seq

/-!
A new writer, a sequence of calls and the underlying `Write`.
-/

namespace Verif.Writer

open WSpec (Written Steps Step Rejected)

/-- What the calls write if the underlying `Write` does not fail -/
def emitted (st : WSettings) (ops : List WOp) : Bytes := ((wops ops).run (Core.new st)).ideal.2

/-- What the calls return if the underlying `Write` does not fail -/
def results (st : WSettings) (ops : List WOp) : Except WPanic (List (Except WErr WOut)) :=
  match ((wops ops).run (Core.new st)).ideal.1 with
  | .ok (.ok rs, _) => .ok rs
  | .ok (.error e, _) => nomatch e
  | .error p => .error p

/-- all bytes have been passed to the underlying `Write` at the end -/
def flushedAll (st : WSettings) (ops : List WOp) : Prop := ((wops ops).run (Core.new st)).flushed true = true

/-- Either no call of the underlying `Write` fails, or the failure is visible in the results and the underlying `Write` has received the beginning of the
output. -/
theorem exec_spec {N : Nat} (hN : 0 < N) (st : WSettings) (sink : Sink) (ops : List WOp) :
    ((execW N st sink ops).1 = results st ops ∧ (execW N st sink ops).2.received <+: sink.received ++ emitted st ops ∧
      (flushedAll st ops → (execW N st sink ops).2.received = sink.received ++ emitted st ops)) ∨
    (¬ sink.Reliable ∧ (∀ rs, (execW N st sink ops).1 = .ok rs → Reported rs) ∧ (execW N st sink ops).2.received <+: sink.received ++ emitted st ops) := by
  have h := run_spec (quiet_wops ops (Core.new st)) (new_good (s := sink) hN)
  rw [new_out] at h
  unfold flushedAll emitted results
  unfold execW
  generalize ((wops ops).run (Core.new st)) = t at h ⊢
  rcases h with ⟨h1, h2, h3, h4, h5⟩ | ⟨h1, h2, h3⟩
  · left
    have pre : (stateOf (t.run.run (BufSink.new N sink))).sink.received <+: sink.received ++ t.ideal.2 := by rw [← h3]; exact List.prefix_append ..
    have fl : t.flushed true = true → (stateOf (t.run.run (BufSink.new N sink))).sink.received = sink.received ++ t.ideal.2 := by
      intro hf
      rw [← h3, BufSink.out, h5 (by simpa [BufSink.new] using hf)]
      simp
    revert pre fl h1
    generalize t.run.run (BufSink.new N sink) = r
    match r with
    | .ok (.ok rs, _) k => intro h1 pre fl; rw [← h1]; exact ⟨rfl, pre, fl⟩
    | .ok (.error e, _) _ => exact nomatch e
    | .err p k => intro h1 pre fl; rw [← h1]; exact ⟨rfl, pre, fl⟩
  · right
    refine ⟨h1, ?_, ?_⟩
    · revert h2
      generalize t.run.run (BufSink.new N sink) = r
      match r with
      | .ok (.ok rs, _) k => rintro h2 _ ⟨⟩; obtain ⟨rs', e, h⟩ := h2 _ rfl; injection e with e; subst e; exact h
      | .ok (.error e, _) _ => exact nomatch e
      | .err p k => rintro h2 _ ⟨⟩
    · revert h3
      generalize t.run.run (BufSink.new N sink) = r
      match r with
      | .ok (.ok rs, _) k => exact id
      | .ok (.error e, _) _ => exact nomatch e
      | .err p k => exact id

/-- `SeqOutcome` for a new writer -/
inductive RunOutcome (st : WSettings) (ops : List WOp) : Prop
  | done (w : Written) (rs : List (Except WErr WOut)) : Steps st .empty ops w → WOk st w → results st ops = .ok rs → ResOks ops rs → emitted st ops = w.bytes st →
      (ops.getLast? = some .finishDocument → flushedAll st ops) → RunOutcome st ops
  | panic (pre : List WOp) (op : WOp) (post : List WOp) (w : Written) (u : WUsage) : ops = pre ++ op :: post → Steps st .empty pre w → WOk st w →
      (¬ ∃ w'', Step st w op w'') → results st ops = .error (.usage u) → emitted st ops = w.bytes st → emitted st ops = emitted st pre → RunOutcome st ops

theorem empty_bytes (st : WSettings) : (Written.empty).bytes st = [] := by
  simp [Written.bytes, Written.empty, WSpec.topsBytes, WSpec.framesBytes]

theorem run_outcome (st : WSettings) {ops : List WOp} (hop : ∀ op ∈ ops, OpOk op) (hfin : FinishLast ops) : RunOutcome st ops := by
  cases wops_outcome ops (WInv.new st) (WOk.empty st) hop hfin with
  | done w rs bs c h1 h2 h3 h4 h5 h6 =>
    unfold Emits at h2
    rw [empty_bytes, List.nil_append] at h3
    exact .done w rs h1 ((WOk.empty st).steps h1) (by rw [results, h2]) h5 (by rw [emitted, h2, h3]) fun hl => h6 hl true
  | panic pre op post w u bs h1 h2 h3 h4 h5 h6 =>
    obtain ⟨rs, c', h6⟩ := h6
    unfold Emits at h6
    unfold Panics at h4
    rw [empty_bytes, List.nil_append] at h5
    exact .panic pre op post w u h1 h2 ((WOk.empty st).steps h2) h3 (by rw [results, h4]) (by rw [emitted, h4, h5]) (by rw [emitted, h4, emitted, h6])

/-! ## A call in the middle -/

/-- results of a sequence behind another one -/
def after (bs : Bytes) (rs : List (Except WErr WOut)) : Except WPanic (Except Empty (List (Except WErr WOut)) × Core) × Bytes → Except WPanic (Except Empty (List (Except WErr WOut)) × Core) × Bytes
  | (.ok (.ok rs', c), bs') => (.ok (.ok (rs ++ rs'), c), bs ++ bs')
  | (.ok (.error e, _), _) => nomatch e
  | (.error p, bs') => (.error p, bs ++ bs')

theorem after_nil (x : Except WPanic (Except Empty (List (Except WErr WOut)) × Core) × Bytes) : after [] [] x = x := by
  rcases x with ⟨p | ⟨e | rs, c⟩, bs⟩
  · rfl
  · exact nomatch e
  · rfl

theorem wops_append {a b : List WOp} {c c' : Core} {bs : Bytes} {rs : List (Except WErr WOut)} (hfin : .finishDocument ∉ a) (h : Emits (wops a) c bs rs c') (hr : ResOks a rs) :
    ((wops (a ++ b)).run c).ideal = after bs rs ((wops b).run c').ideal := by
  induction a generalizing c bs rs with
  | nil =>
    unfold Emits at h
    injection h with h1 h2
    injection h1 with h1
    injection h1 with h1 h3
    injection h1 with h1
    subst h1 h2 h3
    exact (after_nil _).symm
  | cons o os ih =>
    have hof : o ≠ .finishDocument := fun h => hfin (h ▸ List.mem_cons_self ..)
    have hfin' := fun h => hfin (List.mem_cons_of_mem _ h)
    unfold Emits at h
    rw [wops, ideal_bind] at h
    rw [List.cons_append, wops, ideal_bind]
    rcases hi : ((wop o).run c).ideal with ⟨p | ⟨x | x, c1⟩, b1⟩
    · rw [hi] at h; cases h
    · rw [hi] at h
      dsimp only at h ⊢
      split at h
      · rename_i hx
        rw [if_pos hx]
        rw [ideal_bind] at h ⊢
        rcases hi2 : ((wops os).run c1).ideal with ⟨p | ⟨y | y, c2⟩, b2⟩
        · rw [hi2] at h; cases h
        · exact nomatch y
        · rw [hi2] at h
          injection h with h h2
          injection h with h
          injection h with h h3
          injection h with h
          have h3 : c2 = c' := h3
          subst h3
          subst h
          rw [ih hfin' hi2 hr.2]
          rw [← h2]
          rcases ((wops b).run c2).ideal with ⟨p | ⟨y | y, c2⟩, b2⟩
          · simp [after, Tree.ideal]
          · exact nomatch y
          · simp [after, Tree.ideal]
      · rename_i hx
        injection h with h h2
        injection h with h
        injection h with h h3
        injection h with h
        subst h
        rcases hr.1 with ⟨_, h4⟩ | ⟨_, _, h4, _⟩
        · injection h4 with h4; exact absurd h4 hx
        · cases h4
    · rw [hi] at h
      dsimp only at h ⊢
      rw [if_neg hof] at h ⊢
      rw [ideal_bind] at h ⊢
      rcases hi2 : ((wops os).run c1).ideal with ⟨p | ⟨y | y, c2⟩, b2⟩
      · rw [hi2] at h; cases h
      · exact nomatch y
      · rw [hi2] at h
        injection h with h h2
        injection h with h
        injection h with h h3
        injection h with h
        have h3 : c2 = c' := h3
        subst h3
        subst h
        rw [ih hfin' hi2 hr.2]
        rw [← h2]
        rcases ((wops b).run c2).ideal with ⟨p | ⟨y | y, c2⟩, b2⟩
        · simp [after, Tree.ideal]
        · exact nomatch y
        · simp [after, Tree.ideal]

/-- the state of the writer after allowed calls -/
theorem reach (st : WSettings) {pre : List WOp} {w : Written} (hfin : .finishDocument ∉ pre) (hop : ∀ op ∈ pre, OpOk op) (h : Steps st .empty pre w) :
    ∃ c rs w', Like w w' ∧ WOk st w' ∧ WInv st c w' ∧ ResOks pre rs ∧ Emits (wops pre) (Core.new st) (emitted st pre) rs c ∧ emitted st pre = w'.bytes st := by
  cases wops_outcome pre (WInv.new st) (WOk.empty st) hop (fun op hop => fun h => hfin (h ▸ List.dropLast_subset _ hop)) with
  | done w' rs bs c h1 h2 h3 h4 h5 h6 =>
    have e : emitted st pre = bs := by unfold Emits at h2; rw [emitted, h2]
    rw [empty_bytes, List.nil_append] at h3
    exact ⟨c, rs, w', steps_unique h h1, (WOk.empty st).steps h1, h4, h5, e ▸ h2, by rw [e, h3]⟩
  | panic p op post w' u bs h1 h2 h3 h4 h5 h6 =>
    exfalso
    rw [h1] at h
    obtain ⟨w1, r1, r2⟩ := steps_append.1 h
    cases r2 with
    | cons r3 r4 =>
      obtain ⟨w2, r5, _⟩ := step_like (steps_unique r1 h2) r3
      exact h3 ⟨w2, r5⟩

theorem emitted_append {st : WSettings} {pre post : List WOp} {c : Core} {bs : Bytes} {rs : List (Except WErr WOut)} (hfin : .finishDocument ∉ pre)
    (h : Emits (wops pre) (Core.new st) bs rs c) (hr : ResOks pre rs) : emitted st (pre ++ post) = bs ++ ((wops post).run c).ideal.2 := by
  rw [emitted, wops_append hfin h hr]
  rcases ((wops post).run c).ideal with ⟨p | ⟨y | y, c2⟩, b2⟩
  · rfl
  · exact nomatch y
  · rfl

theorem results_append {st : WSettings} {pre post : List WOp} {c : Core} {bs : Bytes} {rs : List (Except WErr WOut)} (hfin : .finishDocument ∉ pre)
    (h : Emits (wops pre) (Core.new st) bs rs c) (hr : ResOks pre rs) : results st (pre ++ post) = (match ((wops post).run c).ideal.1 with
      | .ok (.ok rs', _) => .ok (rs ++ rs')
      | .ok (.error e, _) => nomatch e
      | .error p => .error p) := by
  rw [results, wops_append hfin h hr]
  rcases ((wops post).run c).ideal with ⟨p | ⟨y | y, c2⟩, b2⟩
  · rfl
  · exact nomatch y
  · rfl

theorem wops_cons_eq {o : WOp} {os : List WOp} {c c' : Core} {bs : Bytes} {x : WOut} (ho : o ≠ .finishDocument) (h : Emits (wop o) c bs x c') :
    ((wops (o :: os)).run c).ideal = after bs [.ok x] ((wops os).run c').ideal := by
  rw [wops, ideal_bind]
  unfold Emits at h
  rw [h]
  dsimp only
  rw [if_neg ho, ideal_bind]
  rcases ((wops os).run c').ideal with ⟨p | ⟨y | y, c2⟩, b2⟩
  · rfl
  · exact nomatch y
  · simp [after, Tree.ideal]

end Verif.Writer
