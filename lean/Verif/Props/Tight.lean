import Verif.Proofs.Abs.Tight
import Verif.Props.Local
/-!
# Calls which end with a delimiter do not need the input behind it
-/

namespace Verif.Props
open Reader Usage Json Abs Position Progress

variable {N1 N2 : Nat} {st : Settings} {bytes1 bytes2 : Bytes} {e1 e2 : Option Nat} {sched1 sched2 : List ReadEvent} {rs : List (Except RErr Out)} {pre : List Op} {op : Op} {o : Out} {P : Position}

/-- calls on another input which is the same for the consumed part -/
theorem no_lookahead {s' : St} {ops : List Op} (h : Steps ops (new (σ := AbsSrc) ⟨bytes1, e1, []⟩ st) rs s') (ht : TightSteps 1 ops (new (σ := AbsSrc) ⟨bytes1, e1, []⟩ st) rs s')
    (hn : ∀ t l, Except.error (.unsupportedNumberValue t l) ∉ rs) (hp : s'.peeked = none) (hb : bytes2.take s'.bytePos = bytes1.take s'.bytePos) :
    ∃ r t, Steps ops (new (σ := AbsSrc) ⟨bytes2, e2, []⟩ st) rs (cutSt s' r t) := by
  obtain ⟨q, _, h1, h2⟩ := ht
  obtain ⟨m', g', h3, h4⟩ := h.inv (invT_new bytes1 e1)
  obtain ⟨h5, h6⟩ := h4.rest (h3 hn trivial)
  have hz : s'.bytePos + pl s'.peeked = s'.bytePos := by rw [hp]; rfl
  rw [hz] at h5 h6
  have hq : q = s'.bytePos := by
    have h7 := congrArg List.length (h1.rest.symm.trans h5)
    have h8 : q ≤ bytes1.length := h1.le
    change (bytes1.drop q).length = _ at h7
    simp only [List.length_drop] at h7
    omega
  subst hq
  exact ⟨_, _, h2 bytes2 e2 hb fun hm => runOps_notBad ops (invT_new bytes2 e2) _ hm (.inr rfl)⟩

/-- the results of the calls and the position on another input -/
theorem no_lookahead_position {ops : List Op} {s' : St} (h : Steps ops (new (σ := AbsSrc) ⟨bytes1, e1, []⟩ st) rs s') (ht : TightSteps 1 ops (new (σ := AbsSrc) ⟨bytes1, e1, []⟩ st) rs s')
    (hn : ∀ t l, Except.error (.unsupportedNumberValue t l) ∉ rs) (hp : s'.peeked = none) (h4 : runOps [.currentPosition true] s' = [.ok (.position P)]) (hb : bytes2.take P.dataPos = bytes1.take P.dataPos) :
    runOps (ops ++ [.currentPosition true]) (new (σ := AbsSrc) ⟨bytes2, e2, []⟩ st) = rs ++ [.ok (.position P)] := by
  cases position_of h4
  obtain ⟨r, t, h7⟩ := no_lookahead (bytes2 := bytes2) (e2 := e2) h ht hn hp hb
  exact h7.runOps [.currentPosition true]

/-- C59: after a successful call which reads or skips a member name or reads a string let `P` be the position, that is, the end of what has been consumed. The results of all calls so far
and the position depend only on the bytes in front of `P`: they are the same for every input which starts with the same `P` bytes, no matter what comes then (another byte, the end of the
input or an IO error) and how the input arrives. In particular the reader does not wait for the byte behind the closing `"`. -/
theorem C59_names_and_strings (hN1 : 0 < N1) (hN2 : 0 < N2) (st : Settings) (hd1 : Delivers sched1 bytes1 e1) (hd2 : Delivers sched2 bytes2 e2) (hop : quoted op = true)
    (hr : runReader N1 st sched1 (pre ++ [op, .currentPosition true]) = rs ++ [.ok o, .ok (.position P)]) (hl : rs.length = pre.length)
    (hn : ∀ t l, Except.error (.unsupportedNumberValue t l) ∉ rs) (hb : bytes2.take P.dataPos = bytes1.take P.dataPos) :
    runReader N2 st sched2 (pre ++ [op, .currentPosition true]) = rs ++ [.ok o, .ok (.position P)] := by
  rw [runReader_abs hN1 hd1] at hr
  rw [runReader_abs hN2 hd2]
  obtain ⟨s, h1, h2⟩ := steps_of_eq hr hl
  obtain ⟨s1, h3, h4⟩ := steps_of_eq (pre := [op]) (rs := [.ok o]) (tail := []) h2 rfl
  cases h3 with
  | ok hne h6 h3 =>
    cases h3
    have hc : reads op = true := by cases op <;> first | rfl | cases hop
    have ht : Tight 1 Any s (runOp op : R AbsSrc _) (runOp op) := by
      cases op with
      | nextName => exact tight_out (K := fun _ => True) tight_nextName
      | nextNameOwned => exact tight_out (K := fun _ => True) tight_nextNameOwned
      | skipName => exact tight_out (K := fun _ => True) tight_skipName
      | nextString => exact tight_out (K := fun _ => True) tight_nextString
      | nextStr => exact tight_out (K := fun _ => True) tight_nextStr
      | _ => cases hop
    have h7 := no_lookahead_position (bytes2 := bytes2) (e2 := e2) (h1.append (.ok hne h6 .nil)) (.after h1 (.cons (l1 := 1) (l2 := 0) hne h6 ht trivial .nil)) (by simpa using hn)
      (fwd_runOp hc _ _ _ h6).1 h4 hb
    rw [List.append_assoc, List.append_assoc] at h7
    exact h7

/-- C59 for `skip_value` if the skipped value is an array, object or string -/
theorem C59_skip_value (hN1 : 0 < N1) (hN2 : 0 < N2) (st : Settings) (hd1 : Delivers sched1 bytes1 e1) (hd2 : Delivers sched2 bytes2 e2) {v : ValueType} (hv : v = .array ∨ v = .object ∨ v = .string)
    (hr : runReader N1 st sched1 (pre ++ [.peek, .skipValue, .currentPosition true]) = rs ++ [.ok (.type v), .ok o, .ok (.position P)]) (hl : rs.length = pre.length)
    (hn : ∀ t l, Except.error (.unsupportedNumberValue t l) ∉ rs) (hb : bytes2.take P.dataPos = bytes1.take P.dataPos) :
    runReader N2 st sched2 (pre ++ [.peek, .skipValue, .currentPosition true]) = rs ++ [.ok (.type v), .ok o, .ok (.position P)] := by
  rw [runReader_abs hN1 hd1] at hr
  rw [runReader_abs hN2 hd2]
  obtain ⟨s, h1, h2⟩ := steps_of_eq hr hl
  obtain ⟨s1, h3, h4⟩ := steps_of_eq (pre := [.peek, .skipValue]) (rs := [.ok (.type v), .ok o]) (tail := []) h2 rfl
  cases h3 with
  | @ok _ _ _ _ s0 _ _ hne0 h5 h3 =>
    cases h3 with
    | ok hne h6 h3 =>
      cases h3
      have ht : Tight 1 Any s0 (runOp .skipValue : R AbsSrc _) (runOp .skipValue) := by
        obtain ⟨v', s2, h7, h8⟩ := M.bind_eq_ok.1 h5
        cases h8
        unfold peek at h7
        rw [run_get] at h7
        split at h7
        · cases h7
        obtain ⟨p, s3, h9, h10⟩ := M.bind_eq_ok.1 h7
        have h11 := peekInternal_ok h9
        have h12 : s0 = s3 := by cases p <;> cases h10 <;> rfl
        subst h12
        refine tight_out (K := fun _ => True) (tight_skipValue h11 ?_)
        cases p <;> cases h10 <;> first | exact .inl rfl | exact .inr (.inl rfl) | exact .inr (.inr rfl) | (rcases hv with h | h | h <;> cases h)
      have h7 := no_lookahead_position (bytes2 := bytes2) (e2 := e2) (h1.append (.ok hne0 h5 (.ok hne h6 .nil)))
        (.after h1 (.after (ops := [.peek]) (rs := [.ok (.type v)]) (.ok hne0 h5 .nil) (.cons (l1 := 1) (l2 := 0) hne h6 ht trivial .nil))) (by simpa using hn) (fwd_runOp (op := .skipValue) rfl _ _ _ h6).1 h4 hb
      rw [List.append_assoc, List.append_assoc] at h7
      exact h7

/-- C59 for the start and end of arrays and objects. In front of the call there may be calls which look at what comes next. In front of these is the start of the document or a successful
call which consumes something. -/
theorem C59_brackets (hN1 : 0 < N1) (hN2 : 0 < N2) (st : Settings) (hd1 : Delivers sched1 bytes1 e1) (hd2 : Delivers sched2 bytes2 e2) {looks : List Op} {os : List Out}
    (hpre : pre = [] ∨ ∃ pre' op' rs' o', pre = pre' ++ [op'] ∧ rs = rs' ++ [.ok o'] ∧ consumes op' = true) (hlo : ∀ x ∈ looks, looking x = true) (hop : bracketed op = true)
    (hr : runReader N1 st sched1 (pre ++ looks ++ [op, .currentPosition true]) = rs ++ os.map .ok ++ [.ok o, .ok (.position P)]) (hl : rs.length = pre.length) (hl' : os.length = looks.length)
    (hn : ∀ t l, Except.error (.unsupportedNumberValue t l) ∉ rs) (hb : bytes2.take P.dataPos = bytes1.take P.dataPos) :
    runReader N2 st sched2 (pre ++ looks ++ [op, .currentPosition true]) = rs ++ os.map .ok ++ [.ok o, .ok (.position P)] := by
  rw [runReader_abs hN1 hd1] at hr
  rw [runReader_abs hN2 hd2]
  have hb' : bracket op = true := by cases op <;> first | rfl | cases hop
  have hlo' : ∀ x ∈ looks, Abs.looks x = true := fun x hx => by
    have := hlo x hx
    cases x <;> first | rfl | cases this
  have hc : reads op = true := by cases op <;> first | rfl | cases hop
  rw [show pre ++ looks ++ [op, .currentPosition true] = (pre ++ (looks ++ [op])) ++ [.currentPosition true] by simp] at hr ⊢
  rw [show rs ++ os.map .ok ++ [.ok o, .ok (.position P)] = (rs ++ ((os ++ [o]).map .ok)) ++ [.ok (.position P)] by simp] at hr ⊢
  obtain ⟨s', h1, h2⟩ := steps_of_eq hr (by simp; omega)
  have h0 : Reader.runOps (pre ++ (looks ++ [op])) (new (σ := AbsSrc) ⟨bytes1, e1, []⟩ st) = rs ++ ((os ++ [o]).map .ok) := by
    have := h1.runOps []
    simpa [Reader.runOps] using this
  have hsplit : ∃ s, Steps pre (new (σ := AbsSrc) ⟨bytes1, e1, []⟩ st) rs s ∧ Steps (looks ++ [op]) s ((os ++ [o]).map .ok) s' := steps_split h1 hl
  obtain ⟨s, h3, h4⟩ := hsplit
  have hp : s.peeked = none := by
    rcases hpre with rfl | ⟨pre', op', rs', o', rfl, rfl, hc'⟩
    · cases h3; rfl
    · obtain ⟨s2, h5, h6⟩ := steps_split h3 (by simpa using hl)
      cases h6 with
      | ok _ h7 h6 =>
        cases h6
        exact (fwd_runOp (consumes_reads op' ▸ hc') _ _ _ h7).1
  have hp' : s'.peeked = none := by
    rw [List.map_append] at h4
    obtain ⟨s2, h5, h6⟩ := steps_split h4 (by simpa using hl')
    cases h6 with
    | ok _ h7 h6 =>
      cases h6
      exact (fwd_runOp hc _ _ _ h7).1
  exact no_lookahead_position h1 (.after h3 (tight_unknown hb' looks hlo' hp h4)) (fun t l hm => by
    rcases List.mem_append.1 hm with hm | hm
    · exact hn t l hm
    · obtain ⟨x, _, hx⟩ := List.mem_map.1 hm
      cases hx) hp' h2 hb

/-- the name in `{"a": [] }` is returned although the next read fails; the positions are 4 (behind the name), 8 (behind the skipped array) and 10 (behind the end of the object) -/
example : runReader 4 Settings.default [.data [0x7B, 0x22, 0x61, 0x22, 0x3A, 0x20, 0x5B, 0x5D, 0x20, 0x7D]] ([.beginObject] ++ [.nextName, .currentPosition true]) =
      [.ok .unit] ++ [.ok (.text ['a']), .ok (.position ⟨some [.objectMember ['a']], 0, 4, 4⟩)] ∧
    runReader 4 Settings.default [.data [0x7B, 0x22, 0x61, 0x22, 0x3A, 0x20, 0x5B, 0x5D, 0x20, 0x7D]] ([.beginObject, .nextName] ++ [.peek, .skipValue, .currentPosition true]) =
      [.ok .unit, .ok (.text ['a'])] ++ [.ok (.type .array), .ok .unit, .ok (.position ⟨some [.objectMember ['a']], 0, 8, 8⟩)] ∧
    runReader 4 Settings.default [.data [0x7B, 0x22, 0x61, 0x22, 0x3A, 0x20, 0x5B, 0x5D, 0x20, 0x7D]] ([.beginObject, .nextName, .skipValue] ++ [.hasNext, .hasNext] ++ [.endObject, .currentPosition true]) =
      [.ok .unit, .ok (.text ['a']), .ok .unit] ++ [.bool false, .bool false].map .ok ++ [.ok .unit, .ok (.position ⟨some [], 0, 10, 10⟩)] ∧
    Delivers [.data [0x7B, 0x22], .interrupted, .data [0x61, 0x22], .error 5] [0x7B, 0x22, 0x61, 0x22] (some 5) ∧
    [0x7B, 0x22, 0x61, 0x22].take 4 = [0x7B, 0x22, 0x61, 0x22, 0x3A, 0x20, 0x5B, 0x5D, 0x20, 0x7D].take 4 ∧
    ([.beginObject, .nextName, .skipValue] : List Op) = [.beginObject, .nextName] ++ [.skipValue] ∧ consumes .skipValue = true ∧ looking .hasNext = true ∧ bracketed .endObject = true ∧ quoted .nextName = true :=
  ⟨by decide +kernel, by decide +kernel, by decide +kernel, .data _ _ (.interrupted (.data _ _ (.failed _ _))), by decide, rfl, rfl, rfl, rfl, rfl⟩

/-- in contrast, a number or literal needs the byte behind it: if the next read fails then there is no result -/
example : runReader 4 Settings.default [.data [0x31], .error 5] [.nextNumberAsStr] = [.error (.io (.source 5) ⟨some [], 0, 0, 0⟩)] ∧
    runReader 4 Settings.default [.data [0x22, 0x31, 0x22], .error 5] [.nextStr] = [.ok (.text ['1'])] := by
  decide +kernel

end Verif.Props
