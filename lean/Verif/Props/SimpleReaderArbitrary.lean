import Verif.Proofs.SimpleReader.ObeyRun
import Verif.Props.SimpleReader
import Verif.Props.DeArbitrary
/-!
# The Simple reader API for arbitrary data (C57)

Here nothing is assumed about the data: it may be malformed, it may end too early, and the underlying reader may fail. The closures must stop when a method returns an error
(`SimpleReaderSpec.Stops`, `Verif/Spec/Orderly.lean`): they return some error then. They may return errors and values at any time, whatever they have read up to then.
-/

namespace Verif.Props
open Reader Usage Json SimpleReader SimpleReader.Arb Obey
open SimpleReaderSpec (StopsTop ReadsTop PassesTop top)
open Abs (invT_new)

variable {N : Nat} {st : Settings} {sched : List ReadEvent} {bytes : Bytes} {e : Option Nat} {V : Type} {c : TopC V} {fuel : Nat} {x : V}

/-- What is known about a new reader -/
def newKnow (bytes : Bytes) : Know := ⟨.init, none, false, bytes.length, false⟩

theorem simple_arbitrary (hN : 0 < N) (hdel : Delivers sched bytes e) (hc : StopsTop c) (hf : 2 * bytes.length < fuel) :
    match execSimple N st sched fuel c with
    | .ret (.ok _) _ => ReadsTop c → ∃ m s o s', Abs.InvT st bytes True m s ∧ (runOp .consumeTrailingWhitespace).run s = .ok o s'
    | .ret (.error _) _ => True
    | .panic p => SimpleReaderSpec.Misused p
    | .unspecified => False := by
  have h3 : execSimple N st sched fuel c = ((SimpleReader.run fuel c).run perform (some ⟨Reader.new (σ := AbsSrc) ⟨bytes, e, []⟩ st, StrReader.new⟩)).forget := srun_abs hN hdel st _
  have h4 : Arb.State st bytes True (newKnow bytes) (some ⟨Reader.new (σ := AbsSrc) ⟨bytes, e, []⟩ st, StrReader.new⟩) :=
    .free ⟨nofun, rfl⟩ (invT_new bytes e) rfl nofun nofun
  have h5 := Ob.run (A := Arb.State st bytes True) perform_fit _ (topC_ok (multi := st.allowMultipleTopLevel) fuel c hc (seeked := false) (k := newKnow bytes) ⟨nofun, rfl⟩ rfl (.inr rfl) hf) h4
  rw [h3]
  unfold SimpleReader.run
  rw [Calls.run_bind]
  cases hr : ((topC fuel false c).run none).run perform (some ⟨Reader.new (σ := AbsSrc) ⟨bytes, e, []⟩ st, StrReader.new⟩) with
  | panic p => rw [hr] at h5; exact h5
  | unspecified => rw [hr] at h5; exact h5
  | ret r s' =>
    rw [hr] at h5
    obtain ⟨r, d⟩ := r
    cases r with
    | error e => trivial
    | ok a =>
      obtain ⟨k', h6, h7⟩ := h5
      intro hreads
      have h8 := h7 hreads
      cases h6 with
      | free hfree => have := hfree.2; rw [h8] at this; cases this
      | str _ _ _ _ _ _ hg => rw [h8] at hg; cases hg
      | gone _ hs hrun => exact ⟨_, _, _, _, hs, hrun⟩

/-- **C57** The only panics are the documented ones: `read_name` is called again for the same member, and misuse of `MapAccess` and `EnumAccess`. The reader is not used after
an error and methods are not called where they are not permitted; otherwise there would be other panics, or the outcome `unspecified`. All loops end after less than `fuel`
iterations; otherwise there would be the panic `outOfFuel`. -/
theorem C57_no_panic (hN : 0 < N) (hdel : Delivers sched bytes e) (hc : StopsTop c) (hf : 2 * bytes.length < fuel) :
    (∃ r, execSimple N st sched fuel c = .ret r ()) ∨ ∃ p, execSimple N st sched fuel c = .panic p ∧ SimpleReaderSpec.Misused p := by
  have h := simple_arbitrary (st := st) hN hdel hc hf
  cases hr : execSimple N st sched fuel c with
  | ret r s => exact .inl ⟨r, rfl⟩
  | panic p => rw [hr] at h; exact .inr ⟨p, rfl, h⟩
  | unspecified => rw [hr] at h; exact h.elim

/-! ### Examples -/

namespace Ex57
open SimpleReaderSpec

/-- `[{"a":1,"b":"x`, then the underlying reader fails -/
def badSched : List ReadEvent := [.data [0x5B, 0x7B, 0x22, 0x61, 0x22, 0x3A, 0x31, 0x2C], .data [0x22, 0x62, 0x22, 0x3A, 0x22, 0x78], .error 7]
theorem bad_delivers : Delivers badSched [0x5B, 0x7B, 0x22, 0x61, 0x22, 0x3A, 0x31, 0x2C, 0x22, 0x62, 0x22, 0x3A, 0x22, 0x78] (some 7) := .data _ _ (.data _ _ (.failed 7 _))

theorem got_stops {V : Type} : ∀ e, ∃ e', got (V := V) (.error e) = .error e' := fun e => ⟨e, rfl⟩

theorem partial_stops : StopsTop exPartial := by
  unfold exPartial
  rw [StopsTop, Stops]
  refine ⟨fun x => ?_, got_stops⟩
  rw [StopsVal, Stops]
  refine ⟨fun x => ?_, got_stops⟩
  unfold exMember
  split
  · rw [StopsMem]
    refine ⟨fun n => ?_, fun e => ⟨e, rfl⟩⟩
    dsimp only
    split
    · rw [StopsMem, Stops, StopsStr]
      refine ⟨⟨fun x => ?_, fun e => ⟨e, rfl⟩⟩, got_stops⟩
      rw [StopsStr]
      trivial
    · rw [StopsMem]
      trivial
  · rw [StopsMem]
    trivial

/-- calls `read_name` twice -/
def twice : TopC Bytes := .op (.objectBorrowed [] fun x => .readName fun
  | .ok _ => .readName fun
    | .ok _ => .ret (.ok x)
    | .error e => .ret (.error e)
  | .error e => .ret (.error e)) got

theorem twice_stops : StopsTop twice := by
  unfold twice
  rw [StopsTop, Stops]
  refine ⟨fun x => ?_, got_stops⟩
  rw [StopsMem]
  refine ⟨fun n => ?_, fun e => ⟨e, rfl⟩⟩
  dsimp only
  rw [StopsMem]
  refine ⟨fun n => ?_, fun e => ⟨e, rfl⟩⟩
  dsimp only
  rw [StopsMem]
  trivial

/-- ignores an error which was created by an inner closure -/
def ignores : TopC Bytes := .op (.array (.op (.arrayItems [] fun _ => .ret (.error (.closure []))) fun _ => .op .skip fun _ => .ret (.ok []))) got
/-- `[[1],2]` -/
def nestedSched : List ReadEvent := [.data [0x5B, 0x5B, 0x31, 0x5D, 0x2C, 0x32, 0x5D]]

end Ex57

example : (∃ r, execSimple 4 Settings.default Ex57.badSched 29 exPartial = .ret r ()) ∨ ∃ p, execSimple 4 Settings.default Ex57.badSched 29 exPartial = .panic p ∧ SimpleReaderSpec.Misused p :=
  C57_no_panic (by decide) Ex57.bad_delivers Ex57.partial_stops (by decide)
/-- (here the result is the error of the underlying reader) -/
example : (match execSimple 4 Settings.default Ex57.badSched 29 exPartial with
    | .ret (.error (.string (.io (.source 7) _))) _ => true
    | _ => false) = true := by decide +kernel
/-- the panic of `read_name` does occur -/
example : execSimple 4 Settings.default Ex56.objSched 15 Ex57.twice = .panic .nameConsumed ∧ StopsTop Ex57.twice := ⟨by decide +kernel, Ex57.twice_stops⟩
/-- without the requirement there are other panics: the error which was created by the inner closure is not known to the API, therefore it continues although the reader is
still inside of the inner array -/
example : execSimple 4 Settings.default Ex57.nestedSched 99 Ex57.ignores = .panic (.reader (.usage .trailingNotFullyConsumed)) := by decide +kernel

/-- **C57** If a value is read successfully then the data is a JSON document: regardless of how much of it the closures read, the remainder is checked as well -/
theorem C57_accepts_only_json (hN : 0 < N) (hmulti : st.allowMultipleTopLevel = false) (hdel : Delivers sched bytes e) (hc : StopsTop c) (hr : ReadsTop c) (hf : 2 * bytes.length < fuel)
    (h : execSimple N st sched fuel c = .ret (.ok x) ()) : ∃ v, IsDoc ⟨st.allowComments, st.allowTrailingComma⟩ bytes v := by
  have h1 := simple_arbitrary (st := st) hN hdel hc hf
  rw [h] at h1
  obtain ⟨m, s, o, s', h2, h3⟩ := h1 hr
  exact trailing_doc trivial hmulti h2 h3

/-- only a part of the document is read by the closures -/
example : ∃ v, IsDoc .rfc simpleBytes v :=
  C57_accepts_only_json (st := Settings.default) (N := 4) (x := [0x78]) (fuel := 60) (by decide) rfl simple_delivers Ex57.partial_stops trivial (by decide) (by decide +kernel)

/-! ## The result -/

theorem utf8_length (c : Char) : (String.utf8EncodeChar c).length ≤ 4 := by
  rw [String.length_utf8EncodeChar]
  exact Char.utf8Size_le_four c

theorem text_length {is : List StrItem} {t : Text} (h : ItemsAre is t) : (enc t).length ≤ 2 * (is.flatMap StrItem.bytes).length := by
  induction h with
  | nil => exact Nat.zero_le _
  | @cons i c is cs hi _ ih =>
    have h1 : (enc (c :: cs)).length = (String.utf8EncodeChar c).length + (enc cs).length := by
      show ((c :: cs).flatMap String.utf8EncodeChar).length = _
      rw [List.flatMap_cons, List.length_append]
      rfl
    rw [h1, List.flatMap_cons, List.length_append]
    have h2 := utf8_length c
    cases hi with
    | char => show (String.utf8EncodeChar c).length + _ ≤ 2 * ((String.utf8EncodeChar c).length + _); omega
    | short b => show _ ≤ 2 * (2 + _); omega
    | unicode h => show _ ≤ 2 * (6 + _); omega
    | pair h l => show _ ≤ 2 * (12 + _); omega

mutual
theorem weight_le {cfg : Cfg} : (t : Cst) → t.Ok cfg → weight t.value + 1 ≤ 2 * t.bytes.length
  | .null, _ => by rw [Cst.value, weight, Cst.bytes]; decide
  | .bool true, _ => by rw [Cst.value, weight, Cst.bytes]; decide
  | .bool false, _ => by rw [Cst.value, weight, Cst.bytes]; decide
  | .num bs, h => by
    rw [Cst.value, weight, Cst.bytes]
    rw [Cst.Ok] at h
    have := List.length_pos_iff.2 (Abs.isNumber_ne_nil h)
    omega
  | .str s, h => by
    rw [Cst.Ok] at h
    have := text_length h
    rw [Cst.value, weight, Cst.bytes]
    show _ ≤ 2 * (0x22 :: (s.items.flatMap StrItem.bytes ++ [0x22]) : Bytes).length
    rw [List.length_cons, List.length_append, List.length_singleton]
    omega
  | .arr is, h => by
    rw [Cst.Ok] at h
    have := weightItems_le is h
    rw [Cst.value, weight, Cst.bytes, List.length_cons]
    omega
  | .obj ms, h => by
    rw [Cst.Ok] at h
    have := weightMembers_le ms h
    rw [Cst.value, weight, Cst.bytes, List.length_cons]
    omega
theorem weightItems_le {cfg : Cfg} {first : Bool} : (is : Items) → is.Ok cfg first → weightItems is.values + 1 ≤ 2 * is.bytes.length
  | .nil close, _ => by rw [Items.values, weightItems, Items.bytes, List.length_append, List.length_singleton]; omega
  | .cons sep v rest, h => by
    rw [Items.Ok] at h
    have h1 := weight_le v h.2.1
    have h2 := weightItems_le rest h.2.2
    rw [Items.values, weightItems, Items.bytes, List.length_append, List.length_append]
    omega
theorem weightMembers_le {cfg : Cfg} {first : Bool} : (ms : Members) → ms.Ok cfg first → weightMembers ms.values + 1 ≤ 2 * ms.bytes.length
  | .nil close, _ => by rw [Members.values, weightMembers, Members.bytes, List.length_append, List.length_singleton]; omega
  | .cons sep name w1 w2 v rest, h => by
    rw [Members.Ok] at h
    have h1 := weight_le v h.2.2.2.2.1
    have h2 := weightMembers_le rest h.2.2.2.2.2
    rw [Members.values, weightMembers, Members.bytes]
    simp only [List.length_append, List.length_cons]
    omega
end

theorem doc_weight {cfg : Cfg} {v : JVal} (h : IsDoc cfg bytes v) : weight v ≤ 2 * bytes.length := by
  obtain ⟨d, h1, rfl, rfl⟩ := h
  have := weight_le d.value h1.2.1
  show _ ≤ 2 * (d.ws.bytes ++ (d.value.bytes ++ d.tail.bytes)).length
  rw [List.length_append, List.length_append]
  omega

/-- **C57** … and then the result is the one which is specified for the value (`SimpleReaderSpec.top`) -/
theorem C57_accepted_value (hN : 0 < N) (hmulti : st.allowMultipleTopLevel = false) (hdel : Delivers sched bytes none) (hc : StopsTop c) (hr : ReadsTop c) (hp : PassesTop c) (hf : 2 * bytes.length < fuel)
    (h : execSimple N st sched fuel c = .ret (.ok x) ()) :
    ∃ v, IsDoc ⟨st.allowComments, st.allowTrailingComma⟩ bytes v ∧ (WithinLimit st v → top ⟨st, 0⟩ v c = .ok x) := by
  obtain ⟨v, hv⟩ := C57_accepts_only_json hN hmulti hdel hc hr hf h
  refine ⟨v, hv, fun hl => ?_⟩
  have h1 := top_start hN hdel (valid_of_doc hv) hl (c := c) ⟨True, True⟩ (fun _ => hp) (fun _ => hc) (fuel := fuel) (by have := doc_weight hv; omega)
  cases hx : top ⟨st, 0⟩ v c with
  | misuse =>
    rw [hx] at h1
    obtain ⟨p, h2, _⟩ := h1 trivial
    rw [h2] at h
    cases h
  | ok y =>
    rw [hx] at h1
    dsimp only at h1
    rw [h1] at h
    cases h
    rfl
  | err e =>
    rw [hx] at h1
    obtain ⟨y, h2, _⟩ := h1 trivial
    rw [h2] at h
    cases h

namespace Ex57
open SimpleReaderSpec

theorem partial_passes : PassesTop exPartial := by
  unfold exPartial
  rw [PassesTop, Passes]
  refine ⟨fun x => ?_, got_passes⟩
  rw [PassesVal, Passes]
  refine ⟨fun x => ?_, got_passes⟩
  unfold exMember
  split
  · rw [PassesMem]
    refine ⟨fun n => ?_, fun e => ⟨e, rfl, rfl⟩⟩
    dsimp only
    split
    · rw [PassesMem, Passes, PassesStr]
      refine ⟨⟨fun x => ?_, fun e => ⟨e, rfl, rfl⟩⟩, got_passes⟩
      rw [PassesStr]
      trivial
    · rw [PassesMem]
      trivial
  · rw [PassesMem]
    trivial

end Ex57

example : ∃ v, IsDoc .rfc simpleBytes v ∧ (WithinLimit Settings.default v → top ⟨Settings.default, 0⟩ v exPartial = .ok [0x78]) :=
  C57_accepted_value (st := Settings.default) (N := 4) (fuel := 60) (by decide) rfl simple_delivers Ex57.partial_stops trivial Ex57.partial_passes (by decide) (by decide +kernel)

end Verif.Props
