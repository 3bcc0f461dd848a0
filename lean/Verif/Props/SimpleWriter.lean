import Verif.Proofs.SimpleWriter.Exec
/-!
# Simple writer API (C43, C44)

The closures given to the API are arbitrary programs (`ValOp`, `ArrC`, …). `run o` is the tree of the calls of methods of the `JsonWriter`, for all results of
these methods; `execSimple` executes it with a new `JsonStreamWriter`. The JSON value which is written is described in `Verif/Spec/SimpleWriter.lean`.
-/

namespace Verif.Props
open Writer Json SimpleWriter SimpleSpec
open WSpec (Written cst isDoc_cst)

/-! ## Errors -/

/-- C43: whatever the closures do, after a failed call of a method of the `JsonWriter` there are no further calls, and the result of the API is an error -/
theorem C43_sticky (o : ValOp) : Sticky (SimpleWriter.run o) := sticky_run o

/-- C43: if an error has been stored every method which writes a value fails with it, and the stored error stays the same -/
theorem C43_value (o : ValOp) (e : SErr) : (value o).run (some e) = .ret (.error (.previous e), some e) := value_some o e

/-- C43: … the methods of the string value writer -/
theorem C43_string (o : SvOp) (e : SErr) : (useDelegate (.sv o)).run (some e) = .ret (.error (.previous e), some e) := rfl

/-- C43: … and finishing the document -/
theorem C43_finish (e : SErr) : finishDocument.run (some e) = .ret (.error (.previous e), some e) := rfl

/-- C43: … and everything a closure does: the closure only gets errors, and its own result is returned -/
theorem C43_closures (e : SErr) : (∀ f : StrC, ∃ r, (str f).run (some e) = .ret (r, some e)) ∧ (∀ f : ArrC, ∃ r, (arr f).run (some e) = .ret (r, some e)) ∧
    (∀ f : ObjC, ∃ r, (obj f).run (some e) = .ret (r, some e)) ∧ ∀ f : MemC, ∃ r, (mem f).run (some e) = .ret (r, some e) :=
  ⟨fun f => (stick_str f).stops e, fun f => (stick_arr f).stops e, fun f => (stick_obj f).stops e, fun f => (stick_mem f).stops e⟩

/-! ## What is written -/

theorem execSimple_spec {N : Nat} (hN : 0 < N) (wst : WSettings) (sink : Sink) (o : ValOp) :
    ((∃ r c', ((exec (SimpleWriter.run o)).run (Core.new wst)).ideal.1 = .ok (.ok r, c') ∧ (execSimple N wst sink o).1 = .ok r ∧
      (((exec (SimpleWriter.run o)).run (Core.new wst)).flushed true = true → (execSimple N wst sink o).2.received =
        sink.received ++ ((exec (SimpleWriter.run o)).run (Core.new wst)).ideal.2)) ∨
      ∃ p, ((exec (SimpleWriter.run o)).run (Core.new wst)).ideal.1 = .error p ∧ (execSimple N wst sink o).1 = .error p) ∨
    (¬ sink.Reliable ∧ ∃ e, (execSimple N wst sink o).1 = .ok (.error e)) := by
  have hq := run_spec_panics (quiet_exec (sticky_run o) (Core.new wst)) (new_good (s := sink) hN)
  rw [new_out] at hq
  unfold execSimple
  generalize ((exec (SimpleWriter.run o)).run (Core.new wst)).run.run (BufSink.new N sink) = res at hq ⊢
  rcases hq with ⟨q1, q2, q3, q4, q5⟩ | ⟨q1, q2, q3, q4⟩
  · left
    match res, q1, q2, q3, q5 with
    | .ok (.ok r, c') k, q1, q2, q3, q5 =>
      left
      refine ⟨r, c', q1.symm, rfl, fun hf => ?_⟩
      have hp : k.pos = 0 := q5 hf
      have : k.out = k.sink.received := by simp [BufSink.out, hp]
      rw [← q3]
      exact this.symm
    | .ok (.error e, _) _, _, _, _, _ => nomatch e
    | .err p k, q1, q2, q3, q5 => exact .inr ⟨p, q1.symm, rfl⟩
  · right
    refine ⟨q1, ?_⟩
    match res, q2, q4 with
    | .ok (.ok r', c') k, q2, _ =>
      obtain ⟨e, he⟩ := q2 _ rfl
      cases he
      exact ⟨e, rfl⟩
    | .ok (.error e, _) _, _, _ => nomatch e
    | .err p k, _, q4 =>
      obtain ⟨b, hb⟩ := q4 id
      cases hb

variable {N : Nat} {wst : WSettings} {sink : Sink} {o : ValOp} {j : JVal}

/-- C44: if no closure fails the API is successful, and writes the complete and valid document. Its value has for every member exactly the value which the closure
wrote, or `null` if it wrote none (`MemWrites`). -/
theorem C44_document (hN : 0 < N) (hf : Fine o) (hw : Writes o j) (hrel : sink.Reliable) :
    ∃ out sk, execSimple N wst sink o = (.ok (.ok ()), sk) ∧ sk.received = sink.received ++ out ∧ out = (cst wst 0 j).bytes ∧ ∀ cfg, IsDoc cfg out j := by
  obtain ⟨c', hj, h1, h2⟩ := run_writes (wst := wst) hf hw
  unfold Emits at h1
  rcases execSimple_spec hN wst sink o with (⟨r, c2, q1, q2, q3⟩ | ⟨p, q1, _⟩) | ⟨q, _⟩
  · rw [h1] at q1 q3
    cases q1
    exact ⟨_, _, Prod.ext q2 rfl, q3 (h2 true), rfl, fun cfg => isDoc_cst j hj⟩
  · rw [h1] at q1; cases q1
  · exact absurd hrel q

/-- C44: conversely, for all closures and every underlying `Write`: the API is only successful if the closures wrote a complete value, and the `Write` received the
document of this value -/
theorem C44_only (hN : 0 < N) (hf : Fine o) {sk : Sink} (h : execSimple N wst sink o = (.ok (.ok ()), sk)) :
    ∃ j, Writes o j ∧ sk.received = sink.received ++ (cst wst 0 j).bytes ∧ ∀ cfg, IsDoc cfg (cst wst 0 j).bytes j := by
  rcases execSimple_spec hN wst sink o with (⟨r, c2, q1, q2, q3⟩ | ⟨p, q1, q2⟩) | ⟨_, q⟩
  · rw [h] at q2 q3
    cases q2
    rcases run_ideal (wst := wst) o hf with ⟨bs, e, c', h1⟩ | ⟨j, c', hw, hj, h1, h2⟩ | ⟨_, bs, p, h1⟩
    · unfold Emits at h1
      rw [h1] at q1
      cases q1
    · unfold Emits at h1
      rw [h1] at q3
      exact ⟨j, hw, q3 (h2 true), fun cfg => isDoc_cst j hj⟩
    · unfold Panics at h1
      rw [h1] at q1
      cases q1
  · rw [h] at q2
    cases q2
  · rw [h] at q
    obtain ⟨e, he⟩ := q
    cases he

/-- C44: if closures do not fail as long as no operation fails, there are no panics, whatever the underlying `Write` does -/
theorem C44_no_panic (hN : 0 < N) (hf : Fine o) (hh : Honest o) :
    (∃ sk, execSimple N wst sink o = (.ok (.ok ()), sk)) ∨ ∃ e sk, execSimple N wst sink o = (.ok (.error e), sk) := by
  rcases execSimple_spec hN wst sink o with (⟨r, c2, q1, q2, q3⟩ | ⟨p, q1, q2⟩) | ⟨_, e, q⟩
  · cases r with
    | ok a => exact .inl ⟨_, Prod.ext q2 rfl⟩
    | error e => exact .inr ⟨e, _, Prod.ext q2 rfl⟩
  · exfalso
    rcases run_ideal (wst := wst) o hf with ⟨bs, e, c', h1⟩ | ⟨j, c', hw, hj, h1, h2⟩ | ⟨h, _⟩
    · unfold Emits at h1
      rw [h1] at q1
      cases q1
    · unfold Emits at h1
      rw [h1] at q1
      cases q1
    · exact h hh
  · exact .inr ⟨e, _, Prod.ext q rfl⟩

/-! ## Examples -/

/-- `{"a": null, "b": [1, "é"]}`: the first closure writes nothing, the string is written in two parts which split the character -/
def exSimple : ValOp := .object (.member ['a'] (.ret (.ok ())) fun _ => .member ['b'] (.value (.array (.value (.numberString ['1']) fun _ =>
  .value (.stringWithWriter (.op (.write [0xC3]) fun _ => .op (.write [0xA9]) fun r => .ret (r.map fun _ => ()))) fun r => .ret r)) id) fun r => .ret r)

def exSimpleValue : JVal := .obj [(['a'], .null), (['b'], .arr [.num ['1'], .str ['é']])]

theorem ex_simple_writes : Writes exSimple exSimpleValue := by
  refine .object (.member .nothing (.member (.value (.array (.value (.numberString ?_) (.value (.stringWithWriter (ops := [.write [0xC3], .write [0xA9]])
    (.op (.op .done)) ⟨by decide, ?_⟩) .done)))) .done))
  · exact (isValid_iff ['1']).1 (by decide)
  · intro pre t post h
    match pre, h with
    | [], h => cases h
    | [_], h => cases h
    | _ :: _ :: [], h => cases h
    | _ :: _ :: _ :: _, h => cases h

theorem ex_simple_fine : Fine exSimple := by
  simp [exSimple, Fine, FineObj, FineMem, FineArr]

theorem ex_simple_honest : Honest exSimple := by
  simp [exSimple, Honest, HonestObj, HonestMem, HonestArr, HonestStr, Except.map]

/-- the assumptions can be satisfied -/
example : ∃ out sk, execSimple 4 .default ⟨[], [], []⟩ exSimple = (.ok (.ok ()), sk) ∧ sk.received = out ∧ ∀ cfg, IsDoc cfg out exSimpleValue := by
  obtain ⟨out, sk, h1, h2, _, h3⟩ := C44_document (N := 4) (wst := .default) (sink := ⟨[], [], []⟩) (by decide) ex_simple_fine ex_simple_writes ⟨nofun, nofun⟩
  exact ⟨out, sk, h1, h2, h3⟩

/-- A closure which swallows the error of a nested closure: the array which has been left by the error stays open, and finishing the document panics. Therefore
`C44_no_panic` needs its assumption. -/
theorem C44_counterexample_swallowed_error : ∃ o, Fine o ∧ (match (execSimple 4 .default ⟨[], [], []⟩ o).1 with
    | .error (.usage .finishNotFinished) => true
    | _ => false) = true := by
  refine ⟨.array (.value (.array (.ret (.error (.closure [])))) fun _ => .ret (.ok ())), ?_, by decide +kernel⟩
  simp [Fine, FineArr]

/-- the failing closure may also have started a string -/
example : (match (execSimple 4 .default ⟨[], [], []⟩ (.array (.value (.stringWithWriter (.ret (.error (.closure [])))) fun _ => .value .null fun r => .ret r))).1 with
  | .error (.usage .valueStringWriterActive) => true
  | _ => false) = true := by decide +kernel

/-- a rejected number: the error is swallowed, but nothing further is written and the API fails -/
example : (match execSimple 4 .default ⟨[], [], []⟩ (.array (.value (.numberString ['-']) fun _ => .value .null fun _ => .ret (.ok ()))) with
  | (.ok (.error (.previous (.writer .invalidNumber))), sk) => sk.received == []
  | _ => false) = true := by decide +kernel

end Verif.Props
