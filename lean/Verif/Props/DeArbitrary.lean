import Verif.Proofs.De.ObeyRun
import Verif.Proofs.De.Any
import Verif.Props.De
/-!
# The deserializer for arbitrary data (C56)

Here nothing is assumed about the data: it may be malformed, it may end too early, and the underlying reader may fail. The implementation of `Deserialize` must be
`DeSpec.Orderly` (`Verif/Spec/Orderly.lean`): it does not ignore errors, and it does not return a value without using the deserializer. `t` is either a new deserializer,
which is given to the implementation, or `deserialize_next`.
-/

namespace Verif.Props
open Reader Usage Json De De.Arb
open Abs (invT_new)
open DeSpec (Orderly Misused Trace Done Propagates)

variable {N : Nat} {st : Settings} {sched : List ReadEvent} {bytes : Bytes} {e : Option Nat} {pre : List Op} {V : Type} {max : Nat} {d : De V} {t : Calls Op OpRes (Except DErr V)}
  {tr : List ((op : Op) × OpRes op)} {m : Mode} {multi : Bool}

theorem follows_of (h : Orderly d) (ht : t = De.run max d ∨ t = deserializeNext d) : Follows multi t := by
  rcases ht with rfl | rfl
  · exact follows_run h
  · exact follows_next h

/-! ## Examples of implementations -/

namespace Ex56

open DeSpec (anyDe anySeq anyMap Uses UsesSeq UsesMap UsesVis UsesEnum Data stringDe primVis)

mutual
theorem any_uses (n : Nat) : Uses (anyDe n) := by
  cases n with
  | zero => unfold anyDe; rw [Uses]; rfl
  | succ n =>
    unfold anyDe
    rw [Uses, UsesVis, Uses, UsesEnum]
    exact ⟨rfl, rfl, anySeq_uses n [], anyMap_uses n [], trivial⟩
theorem anySeq_uses (n : Nat) (acc : List Data) : UsesSeq (anySeq n acc) := by
  cases n with
  | zero => unfold anySeq; rw [UsesSeq]; trivial
  | succ n =>
    unfold anySeq
    rw [UsesSeq]
    refine ⟨any_uses n, fun r => ?_⟩
    match r with
    | .ok (some x) => exact anySeq_uses n _
    | .ok none => dsimp only; rw [UsesSeq]; trivial
    | .error e => dsimp only; rw [UsesSeq]; trivial
theorem anyMap_uses (n : Nat) (acc : List (Text × Data)) : UsesMap (anyMap n acc) := by
  cases n with
  | zero => unfold anyMap; rw [UsesMap]; trivial
  | succ n =>
    unfold anyMap
    rw [UsesMap]
    intro r
    match r with
    | .ok (some (.str name)) =>
      dsimp only
      rw [UsesMap]
      refine ⟨any_uses n, fun r => ?_⟩
      match r with
      | .ok x => exact anyMap_uses n _
      | .error e => dsimp only; rw [UsesMap]; trivial
    | .ok none => dsimp only; rw [UsesMap]; trivial
    | .ok (some .unit) | .ok (some (.bool _)) | .ok (some (.int _)) | .ok (some (.float _)) | .ok (some (.seq _)) | .ok (some (.map _)) => dsimp only; rw [UsesMap]; trivial
    | .error e => dsimp only; rw [UsesMap]; trivial
end

/-- a type like `serde_json::Value` -/
theorem any_orderly (n : Nat) : Orderly (anyDe n) := ⟨DeSpec.Aborts.weaken (fun _ _ _ => trivial) _ (DeSpec.any_propagates n), any_uses n⟩

/-- ignores the value -/
def anything : De Unit := .call .ignoredAny (primVis fun _ => .ok ()) id
/-- text -/
def text : De Unit := .call .str (primVis fun _ => .ok ()) id
/-- a map, which is read by `c` -/
def mapDe (c : MapC Unit) : De Unit := .call .map (.mk (fun _ => .ok ()) (.ret (.error .invalidNumber)) (.ret (.error .invalidNumber)) (.ret (.error .invalidNumber)) c (.ret (.error .invalidNumber))) id

/-- reads two keys one after the other -/
def twoKeys : De Unit := mapDe (.key text fun
  | .ok _ => .key text fun
    | .ok _ => .ret (.ok ())
    | .error e => .ret (.error e)
  | .error e => .ret (.error e))
/-- reads one member -/
def oneMember : De Unit := mapDe (.key text fun
  | .ok _ => .value anything fun
    | .ok _ => .ret (.ok ())
    | .error e => .ret (.error e)
  | .error e => .ret (.error e))
/-- does not use the deserializer for the value of the member -/
def noValue : De Unit := mapDe (.key text fun
  | .ok _ => .value (.ret (.ok ())) fun
    | .ok _ => .ret (.ok ())
    | .error e => .ret (.error e)
  | .error e => .ret (.error e))

theorem simple_propagates {m : Method} : Propagates (.call m (primVis fun _ => .ok ()) id : De Unit) := by
  unfold primVis
  rw [Propagates, DeSpec.Aborts, DeSpec.AbortsVis, DeSpec.Aborts, DeSpec.AbortsSeq, DeSpec.AbortsMap, DeSpec.AbortsEnum]
  exact ⟨⟨trivial, trivial, trivial, trivial, trivial⟩, fun e => ⟨e, rfl, rfl⟩⟩
theorem simple_uses {m : Method} : Uses (.call m (primVis fun _ => .ok ()) id : De Unit) := by
  unfold primVis
  rw [Uses, UsesVis, Uses, UsesSeq, UsesMap, UsesEnum]
  exact ⟨rfl, rfl, trivial, trivial, trivial⟩
theorem map_propagates {c : MapC Unit} (h : DeSpec.AbortsMap (fun e e' => DeSpec.kind e = DeSpec.kind e') c) : Propagates (mapDe c) := by
  unfold mapDe
  rw [Propagates, DeSpec.Aborts, DeSpec.AbortsVis, DeSpec.Aborts, DeSpec.AbortsSeq, DeSpec.AbortsEnum]
  exact ⟨⟨trivial, trivial, trivial, h, trivial⟩, fun e => ⟨e, rfl, rfl⟩⟩
theorem map_uses {c : MapC Unit} (h : UsesMap c) : Uses (mapDe c) := by
  unfold mapDe
  rw [Uses, UsesVis, Uses, UsesSeq, UsesEnum]
  exact ⟨rfl, rfl, trivial, h, trivial⟩

theorem twoKeys_orderly : Orderly twoKeys := by
  refine ⟨DeSpec.Aborts.weaken (fun _ _ _ => trivial) _ (map_propagates ?_), map_uses ?_⟩
  · rw [DeSpec.AbortsMap]
    refine ⟨simple_propagates, fun x => ?_, fun e => ⟨e, rfl, rfl⟩⟩
    dsimp only
    rw [DeSpec.AbortsMap]
    refine ⟨simple_propagates, fun x => ?_, fun e => ⟨e, rfl, rfl⟩⟩
    dsimp only
    rw [DeSpec.AbortsMap]
    trivial
  · rw [UsesMap]
    intro r
    cases r with
    | ok x =>
      dsimp only
      rw [UsesMap]
      intro r
      cases r <;> dsimp only <;> rw [UsesMap] <;> trivial
    | error e => dsimp only; rw [UsesMap]; trivial

theorem oneMember_propagates : Propagates oneMember := by
  refine map_propagates ?_
  rw [DeSpec.AbortsMap]
  refine ⟨simple_propagates, fun x => ?_, fun e => ⟨e, rfl, rfl⟩⟩
  dsimp only
  rw [DeSpec.AbortsMap]
  refine ⟨simple_propagates, fun x => ?_, fun e => ⟨e, rfl, rfl⟩⟩
  dsimp only
  rw [DeSpec.AbortsMap]
  trivial
theorem oneMember_uses : Uses oneMember := by
  refine map_uses ?_
  rw [UsesMap]
  intro r
  cases r with
  | ok x =>
    dsimp only
    rw [UsesMap]
    refine ⟨simple_uses, fun r => ?_⟩
    cases r <;> dsimp only <;> rw [UsesMap] <;> trivial
  | error e => dsimp only; rw [UsesMap]; trivial
theorem oneMember_orderly : Orderly oneMember := ⟨DeSpec.Aborts.weaken (fun _ _ _ => trivial) _ oneMember_propagates, oneMember_uses⟩

deriving instance DecidableEq for Outcome

/-- `[1,` and then an error of the underlying reader -/
def badSched : List ReadEvent := [.data [0x5B, 0x31], .interrupted, .data [0x2C], .error 7]
theorem delivers : Delivers badSched [0x5B, 0x31, 0x2C] (some 7) := .data _ _ (.interrupted (.data _ _ (.failed 7 [])))

/-- `{"a":1}` -/
def objSched : List ReadEvent := [.data [0x7B, 0x22, 0x61, 0x22, 0x3A, 0x31, 0x7D]]
theorem obj_delivers : Delivers objSched [0x7B, 0x22, 0x61, 0x22, 0x3A, 0x31, 0x7D] none := .data _ _ .done
theorem obj_valid : Valid Settings.default [0x7B, 0x22, 0x61, 0x22, 0x3A, 0x31, 0x7D] [.obj [(['a'], .num ['1'])]] := by
  have h : Prog.exec 4 Settings.default objSched (Prog.readDoc 40) = .ok (.obj [(['a'], .num ['1'])]) := by decide +kernel
  obtain ⟨d, h1, h2, h3, _⟩ := (C11_C12_read_document (by decide) _ obj_delivers (by decide) _).1 h
  exact valid_of_doc ⟨d, h1, h2, h3⟩

end Ex56

/-! ## Theorems -/

/-- **C56** Whatever the reader returns: the deserializer follows the usage rules of the reader if it is used in front of a value -/
theorem C56_calls_allowed (hd : Orderly d) (ht : t = De.run max d ∨ t = deserializeNext d) (hm : m.canValue multi = true) (h : Trace t tr) :
    m.abides multi (tr.map Sigma.fst) (resultsOf tr) = true := by
  obtain ⟨t', rfl, h1⟩ := follows_of (multi := multi) hd ht
  exact Ob.abides (h1 False ⟨m, 0⟩ hm) (strip_trace h)

/-- the calls for an array which is not ended; and a reader which returns nonsense -/
example : Mode.abides false ⟨[.array], true, false⟩ [.peek, .beginArray, .hasNext, .peek] [.ok (.type .array), .ok .unit, .ok (.bool true), .error (.syntax .incompleteDocument ⟨some [], 0, 0, 0⟩)] = true :=
  C56_calls_allowed (max := 128) (tr := [⟨.peek, .ok (.type .array)⟩, ⟨.beginArray, .ok .unit⟩, ⟨.hasNext, .ok (.bool true)⟩, ⟨.peek, .error (.syntax .incompleteDocument ⟨some [], 0, 0, 0⟩)⟩])
    (Ex56.any_orderly 5) (.inl rfl) rfl (.call _ _ _ _ (.call _ _ _ _ (.call _ _ _ _ (.call _ _ _ _ (.nil _)))))

/-- **C56** … and after success it has read exactly one value: the reader is where it would be after reading a number -/
theorem C56_behind (hd : Orderly d) (ht : t = De.run max d ∨ t = deserializeNext d) (hm : m.canValue multi = true) {x : V} (h : Done t tr (.ok x)) :
    m.after (tr.map Sigma.fst) (resultsOf tr) = some (m.next (.text []) .nextNumberAsStr) := by
  obtain ⟨t', rfl, h1⟩ := follows_of (multi := multi) hd ht
  obtain ⟨_, h2⟩ := strip_done h
  obtain ⟨k', h3, h4⟩ := Ob.after (h1 False ⟨m, 0⟩ hm) h2
  rw [h3, h4.1]
  rfl

/-- the value of a member -/
example : Mode.after ⟨[.objectValue], false, false⟩ [.peek, .beginArray, .hasNext, .endArray] [.ok (.type .array), .ok .unit, .ok (.bool false), .ok .unit] = some ⟨[.objectName], false, false⟩ :=
  C56_behind (multi := false) (max := 128) (x := DeSpec.Data.seq []) (tr := [⟨.peek, .ok (.type .array)⟩, ⟨.beginArray, .ok .unit⟩, ⟨.hasNext, .ok (.bool false)⟩, ⟨.endArray, .ok .unit⟩]) (Ex56.any_orderly 5)
    (.inl rfl) rfl (.call _ _ _ _ _ (.call _ _ _ _ _ (.call _ _ _ _ _ (.call _ _ _ _ _ (.ret _)))))

theorem exec_after (hN : 0 < N) (hd : Delivers sched bytes e) (hm : Mode.init.after pre (runReader N st sched pre) = some m) :
    ∃ s g, ((∀ r ∈ runReader N st sched pre, ∀ t l, r ≠ .error (.unsupportedNumberValue t l)) → g) ∧ Abs.InvT st bytes g m s ∧
      ∀ {V : Type} (t : Calls Op OpRes (Except DErr V)) post, execDe N st sched pre t post = ((t.bind (afterDe post)).run handle (some s)).forget := by
  rw [runReader_abs hN hd] at hm ⊢
  obtain ⟨s, g, h0, h1, h2⟩ := calls_after pre (invT_new bytes e (st := st)) hm
  refine ⟨s, g, fun h => h0 h trivial, h1, fun t post => ?_⟩
  unfold execDe
  rw [run_abs hN hd]
  exact congrArg _ (h2 _ _)

/-- **C56** For arbitrary data there is a result, or one of the panics which are documented as misuse of `MapAccess` and `EnumAccess`. The reader does not panic, and it is not
used any more after an error. -/
theorem C56_no_panic (hN : 0 < N) (hdel : Delivers sched bytes e) (hd : Orderly d) (ht : t = De.run max d ∨ t = deserializeNext d)
    (hm : Mode.init.after pre (runReader N st sched pre) = some m) (ha : m.canValue st.allowMultipleTopLevel = true) :
    (∃ r, execDe N st sched pre t [] = .ret (r, []) ()) ∨ ∃ p, execDe N st sched pre t [] = .panic p ∧ Misused p := by
  obtain ⟨s, g, _, h1, h2⟩ := exec_after hN hdel hm
  rw [h2, Calls.run_bind]
  have h3 := (follows_of hd ht).run h1 ha
  cases hr : t.run handle (some s) with
  | ret r s' =>
    rw [hr] at h3
    cases r with
    | ok x => exact .inl ⟨.ok x, rfl⟩
    | error e => exact .inl ⟨.error e, rfl⟩
  | panic p => rw [hr] at h3; exact .inr ⟨p, rfl, h3⟩
  | unspecified => rw [hr] at h3; exact h3.elim

/-- the underlying reader fails inside of the array -/
example : (∃ r, execDe 4 Settings.default Ex56.badSched [.beginArray, .skipValue] (deserializeNext (DeSpec.anyDe 9)) [] = .ret (r, []) ()) ∨
    ∃ p, execDe 4 Settings.default Ex56.badSched [.beginArray, .skipValue] (deserializeNext (DeSpec.anyDe 9)) [] = .panic p ∧ Misused p :=
  C56_no_panic (max := 0) (m := ⟨[.array], false, false⟩) (by decide) Ex56.delivers (Ex56.any_orderly 9) (.inr rfl) (by decide +kernel) rfl
/-- the panics do occur -/
example : execDe 4 Settings.default Ex56.objSched [] (De.run 9 Ex56.twoKeys) [] = .panic .keyWhenValueExpected ∧ Orderly Ex56.twoKeys := ⟨by decide +kernel, Ex56.twoKeys_orderly⟩
/-- without the requirement there are other panics: an implementation which does not use the deserializer for a member -/
example : execDe 4 Settings.default Ex56.objSched [] (De.run 9 Ex56.noValue) [] = .panic (.reader (.usage .endObjectExpectsValue)) := by decide +kernel

/-- a JSON document is required for `consume_trailing_whitespace` to succeed -/
theorem trailing_doc {s : Abs.St} {g : Prop} (hg : g) (hmulti : st.allowMultipleTopLevel = false) (h : Abs.InvT st bytes g m s) {o : Out} {s2 : Abs.St}
    (hrun : (runOp .consumeTrailingWhitespace).run s = .ok o s2) : ∃ v, IsDoc ⟨st.allowComments, st.allowTrailingComma⟩ bytes v := by
  have hw := Abs.trailing_wp h
  unfold Wp at hw
  rw [hrun] at hw
  obtain ⟨_, ha, c, t, rfl, hat, ht, hrest, hok⟩ := hw
  simp only [Mode.allowed, Bool.and_eq_true] at ha
  obtain ⟨⟨_, hf⟩, hs⟩ := ha
  obtain ⟨d, rfl⟩ := Abs.top_of_frames hf
  have hd : d ≠ [] := by simpa [Abs.Ctx.mode, Abs.Ctx.root] using hs
  have hp : s.peeked = none := by
    change (Abs.noTerm s).peeked = none
    generalize Abs.noTerm s = t at hat ⊢
    cases hat with
    | n => rfl
    | @p p l pos r hp =>
      have := hp.lead
      cases l with
      | ws w =>
        rcases this.2.2.1 with h | h
        · exact absurd h hd
        · rw [hmulti] at h; cases h
      | sep => exact this.elim
      | colon => exact this.elim
  obtain ⟨hcok, t, ht, hi⟩ := hok hg hp
  rw [hi]
  exact doc_of_top hd hmulti hcok ht

/-- **C56** If deserializing the data and consuming the trailing whitespace succeed then the data is a JSON document -/
theorem C56_accepts_only_json (hN : 0 < N) (hmulti : st.allowMultipleTopLevel = false) (hdel : Delivers sched bytes e) (hd : Orderly d) (ht : t = De.run max d ∨ t = deserializeNext d) {x : V} {o : Out}
    (h : execDe N st sched [] t [.consumeTrailingWhitespace] = .ret (.ok x, [.ok o]) ()) : ∃ v, IsDoc ⟨st.allowComments, st.allowTrailingComma⟩ bytes v := by
  obtain ⟨s, g, hg, h1, h2⟩ := exec_after (pre := []) (m := .init) hN hdel rfl
  replace hg := hg fun r hr => by cases hr
  rw [h2, Calls.run_bind] at h
  have h3 := (follows_of hd ht).run h1 rfl
  cases hr : t.run handle (some s) with
  | panic p => rw [hr] at h; cases h
  | unspecified => rw [hr] at h; cases h
  | ret r s' =>
    rw [hr] at h h3
    cases r with
    | error e => cases h
    | ok y =>
      obtain ⟨s1, rfl, h4, _⟩ := h3
      cases hrun : (runOp .consumeTrailingWhitespace).run s1 with
      | ok o s2 => exact trailing_doc hg hmulti h4 hrun
      | err e s2 =>
        exfalso
        dsimp only at h
        rw [afterDe, results, Calls.run] at h
        unfold handle at h
        dsimp only at h
        rw [hrun] at h
        cases e <;> cases h

example : ∃ v, IsDoc .rfc [0x7B, 0x22, 0x61, 0x22, 0x3A, 0x31, 0x7D] v :=
  C56_accepts_only_json (st := Settings.default) (N := 3) (x := ()) (o := .unit) (by decide) rfl Ex56.obj_delivers Ex56.oneMember_orderly (.inr rfl) (max := 0) (by decide +kernel)

/-- **C56** … and the result is the one which is specified for its value -/
theorem C56_accepted_value (hN : 0 < N) (hmulti : st.allowMultipleTopLevel = false) (hdel : Delivers sched bytes none) (hd : Propagates d) (hu : DeSpec.Uses d) {x : V} {o : Out}
    (h : execDe N st sched [] (De.run max d) [.consumeTrailingWhitespace] = .ret (.ok x, [.ok o]) ()) :
    ∃ v, IsDoc ⟨st.allowComments, st.allowTrailingComma⟩ bytes v ∧ DeSpec.value ⟨st, max, 0, 0⟩ v d = .ok x := by
  obtain ⟨v, hv⟩ := C56_accepts_only_json hN hmulti hdel ⟨DeSpec.Aborts.weaken (fun _ _ _ => trivial) d hd, hu⟩ (.inl rfl) h
  refine ⟨v, hv, ?_⟩
  cases hx : DeSpec.value ⟨st, max, 0, 0⟩ v d with
  | misuse =>
    obtain ⟨p, h1, _⟩ := C53_misuse (pre := []) (post := [.consumeTrailingWhitespace]) (k := .init [v]) hN hdel (valid_of_doc hv) rfl rfl rfl hu hx
    rw [h1] at h
    cases h
  | ok y =>
    obtain ⟨rs, h1, _⟩ := C53_value (pre := []) (post := [.consumeTrailingWhitespace]) (k := .init [v]) hN hdel (valid_of_doc hv) rfl rfl rfl hx rfl
    rw [h1] at h
    cases h
    rfl
  | err e =>
    obtain ⟨y, h1, _⟩ := C53_error (pre := []) (post := [.consumeTrailingWhitespace]) (k := .init [v]) hN hdel (valid_of_doc hv) rfl rfl rfl hd hx
    rw [h1] at h
    cases h

example : ∃ v, IsDoc .rfc [0x7B, 0x22, 0x61, 0x22, 0x3A, 0x31, 0x7D] v ∧ DeSpec.value ⟨Settings.default, 128, 0, 0⟩ v Ex56.oneMember = .ok () :=
  C56_accepted_value (st := Settings.default) (N := 3) (o := .unit) (by decide) rfl Ex56.obj_delivers Ex56.oneMember_propagates Ex56.oneMember_uses (by decide +kernel)

/-- the hypotheses of `C53_misuse`: two keys are read without the value in between -/
example : ∃ p, execDe 4 Settings.default Ex56.objSched [] (De.run 9 Ex56.twoKeys) [] = .panic p ∧ Misused p :=
  C53_misuse (v := .obj [(['a'], .num ['1'])]) (k := .init [.obj [(['a'], .num ['1'])]]) (vs := [.obj [(['a'], .num ['1'])]]) (by decide) Ex56.obj_delivers Ex56.obj_valid rfl rfl rfl Ex56.twoKeys_orderly.2 (by decide +kernel)

end Verif.Props
