import Verif.Proofs.De.Nesting
import Verif.Proofs.De.Any
import Verif.Props.De
import Verif.Props.Ser
/-!
# Nesting limit of the deserializer, numbers, and round trips (C50–C52)
-/

namespace Verif.Props
open Reader Json Cursor De
open DeSpec (Env Ans DKind Propagates Aborts Trace Done openAfter neutral Visited Data anyDe ofJson ofSer steps)
open SerSpec (Ok)
open Writer (WSettings Sink)
open Ser (SVal)

variable {N N' : Nat} {st : Settings} {sched : List ReadEvent} {bytes : Bytes} {vs : List JVal} {pre post : List Op} {k : Cur} {v : JVal} {V : Type} {max : Nat} {d : De V}
  {tr : List ((op : Op) × OpRes op)}

/-! ## Nesting limit -/

/-- **C50** Whatever the reader returns and whatever the implementation of `Deserialize` does: there are never more open arrays and objects than the limit -/
theorem C50_bound (d : De V) (h : Trace (De.run max d) tr) : 0 ≤ openAfter tr ∧ openAfter tr ≤ max := by
  have := (safe_run max d).trace h (Nat.zero_le _)
  omega

/-- the limit can be reached -/
example : ∃ tr, Trace (De.run 1 (anyDe 5)) tr ∧ openAfter tr = 1 :=
  ⟨[⟨.peek, .ok (.type .array)⟩, ⟨.beginArray, .ok .unit⟩], .call _ _ _ _ (.call _ _ _ _ (.nil _)), rfl⟩

/-- **C50** The limit of `deserialize_next` is 128 -/
theorem C50_bound_next (d : De V) (h : Trace (deserializeNext d) tr) : 0 ≤ openAfter tr ∧ openAfter tr ≤ 128 := by
  have := (safe_next d).trace h (Nat.zero_le _)
  have : (defaultMaxNestingDepth : Int) = 128 := rfl
  omega

/-- **C50** There are no other calls which change the open arrays and objects -/
theorem C50_calls (d : De V) (h : Trace (De.run max d) tr) : ∀ c ∈ tr, neutral c.1 = true ∨ c.1 = .beginArray ∨ c.1 = .beginObject ∨ c.1 = .endArray ∨ c.1 = .endObject :=
  (safe_run max d).calls h

/-- **C50** If the implementation of `Deserialize` does not ignore errors then after success the depth is what it was before, and all arrays and objects have been ended -/
theorem C50_depth_restored {depth depth' : Nat} {x : V} (ha : Aborts (fun _ _ => True) d) (hd : depth ≤ max) (h : Done ((deserialize max d).run depth) tr (.ok x, depth')) :
    depth' = depth ∧ openAfter tr = 0 := by
  obtain ⟨o', ⟨-, -, -, -, h1⟩, h2⟩ := (safe_deserialize (n := max) (b := True) d (fun _ => ha) depth 0 (Nat.zero_le _) hd).done h
  obtain ⟨h3, h4⟩ := h1 trivial x rfl
  exact ⟨h3, by omega⟩

/-- an empty array -/
example : Aborts (fun _ _ => True) (.call .seq (.mk .ok (.ret (.ok .unit)) (.ret (.ok .unit)) (.ret (.ok .unit)) (.ret (.ok .unit)) (.ret (.ok .unit))) id : De Prim) ∧
    Done ((deserialize 3 (.call .seq (.mk .ok (.ret (.ok .unit)) (.ret (.ok .unit)) (.ret (.ok .unit)) (.ret (.ok .unit)) (.ret (.ok .unit))) id : De Prim)).run 2)
      [⟨.beginArray, .ok .unit⟩, ⟨.endArray, .ok .unit⟩] (.ok .unit, 2) := by
  refine ⟨?_, .call _ _ _ _ _ (.call _ _ _ _ _ (.ret _))⟩
  rw [Aborts, DeSpec.AbortsVis, DeSpec.Aborts, DeSpec.AbortsSeq, DeSpec.AbortsMap, DeSpec.AbortsEnum]
  exact ⟨⟨trivial, trivial, trivial, trivial, trivial⟩, fun e => ⟨e, rfl, trivial⟩⟩

/-- **C50** At the limit no array, object or tuple is started; the reader is not even used -/
theorem C50_refused {depth : Nat} (hd : max ≤ depth) (vis : De.Visitor V) (m : Method) (hm : m = .seq ∨ m = .map ∨ ∃ n, m = .tuple n) :
    (De.method max m vis).run depth = .ret (.error (.maxNestingDepthExceeded max), depth) := by
  have h : ∀ m : D V, (checkNesting max m).run depth = .ret (.error (.maxNestingDepthExceeded max), depth) := by
    intro m
    show (((if depth ≥ max then CT.fail (.maxNestingDepthExceeded max) else _) : D V).run depth) = _
    rw [if_pos hd]
    rfl
  rcases hm with rfl | rfl | ⟨n, rfl⟩ <;> exact h _

/-- **C50** A document whose value is too deeply nested for the deserializer, but not for the reader, is rejected by an implementation which uses `deserialize_any` -/
theorem C50_too_deep (hN : 0 < N) (hd : Delivers sched bytes none) (hv : Valid st bytes [v]) {x : Data} (hx : ofJson v = some x) (hdeep : max < x.depth)
    (hlim : ∀ n, st.maxNestingDepth = some n → x.depth ≤ n) (hnum : st.restrictNumberValues = true → ∀ t ∈ numbers v, unsupportedNumber t = false) {n : Nat} (hn : steps v ≤ n) :
    ∃ e, execDe N st sched [] (De.run max (anyDe n)) post = .ret (.error e, []) () ∧ e = .maxNestingDepthExceeded max := by
  have hdep := DeSpec.ofJson_depth v hx
  obtain ⟨y, h1, h2⟩ := C53_error (post := post) hN hd hv (pre := []) (k := .init [v]) rfl rfl rfl (DeSpec.any_propagates n)
    (DeSpec.deep_value v hn (env := envAt st (.init [v]) max) ⟨fun m hm => by have := hlim m hm; show 0 + depth v ≤ m; omega, hnum⟩ (Nat.zero_le _) (show max < 0 + depth v by omega) hx)
  refine ⟨y, h1, ?_⟩
  cases y <;> cases h2
  rfl

example : ∃ e, execDe 4 Settings.default exSched [] (De.run 1 (anyDe 20)) [] = .ret (.error e, []) () ∧ e = .maxNestingDepthExceeded 1 :=
  C50_too_deep (by decide) ex_delivers ex_valid (x := .seq [.int 1, .map [(['a'], .str ['b'])]]) rfl (by decide) (by intro n hn; cases hn; decide) (by intro _; decide) (by decide)

/-! ## Numbers -/

/-- **C52** Which type and which value the visitor is given for a number -/
theorem C52_visited (hN : 0 < N) (hd : Delivers sched bytes none) (hv : Valid st bytes vs) (hr : reach st pre (.init vs) = some k) (hc : k.canValue st.allowMultipleTopLevel = true)
    {t : Text} (hk : k.next = some (.num t)) (hnum : (st.restrictNumberValues && unsupportedNumber t) = false) {p : Prim} (ht : Visited t (.ok p))
    (hp : (Cursor.run st post k.advance).length = post.length) :
    ∃ rs, execDe N st sched pre (De.run max (.call .any (DeSpec.primVis .ok) id)) post = .ret (.ok p, rs) () ∧ rs.map view = Cursor.run st post k.advance := by
  refine C53_value hN hd hv hr hc hk ?_ hp
  rw [DeSpec.value]
  show ((DeSpec.number (envAt st k max) (.num t) >>= fun t => DeSpec.anyNumber t >>= fun p => (DeSpec.sem _).prim p) >>= _) = _
  have h1 : DeSpec.number (envAt st k max) (.num t) = .ok t := if_neg (by rw [show (envAt st k max).st = st from rfl, hnum]; nofun)
  rw [h1, DeSpec.Answer.pure_bind, DeSpec.anyNumber_visited ht, DeSpec.Answer.pure_bind]
  unfold DeSpec.primVis
  dsimp only
  rw [DeSpec.sem]
  rfl

/-- **C52** Integers outside of the range of `i128` and `u128` are rejected -/
theorem C52_rejected (hN : 0 < N) (hd : Delivers sched bytes none) (hv : Valid st bytes vs) (hr : reach st pre (.init vs) = some k) (hc : k.canValue st.allowMultipleTopLevel = true)
    {t : Text} (hk : k.next = some (.num t)) (hnum : (st.restrictNumberValues && unsupportedNumber t) = false) (ht : Visited t (.error ())) :
    execDe N st sched pre (De.run max (.call .any (DeSpec.primVis .ok) id)) post = .ret (.error .invalidNumber, []) () := by
  have hprop : Propagates (De.call .any (DeSpec.primVis Except.ok) id : De Prim) := by
    unfold DeSpec.primVis
    rw [Propagates, Aborts, DeSpec.AbortsVis, DeSpec.Aborts, DeSpec.AbortsSeq, DeSpec.AbortsMap, DeSpec.AbortsEnum]
    exact ⟨⟨trivial, trivial, trivial, trivial, trivial⟩, fun e => ⟨e, rfl, rfl⟩⟩
  obtain ⟨y, h1, h2⟩ := C53_error (max := max) (post := post) (e := .invalidNumber) hN hd hv hr hc hk hprop (by
    rw [DeSpec.value]
    show ((DeSpec.number (envAt st k max) (.num t) >>= fun t => DeSpec.anyNumber t >>= fun p => (DeSpec.sem _).prim p) >>= _) = _
    have h1 : DeSpec.number (envAt st k max) (.num t) = .ok t := if_neg (by rw [show (envAt st k max).st = st from rfl, hnum]; nofun)
    rw [h1, DeSpec.Answer.pure_bind, DeSpec.anyNumber_visited ht]
    rfl)
  rw [h1]
  cases y <;> cases h2
  rfl

/-- **C52** Every JSON number is visited in one of the ways, or rejected -/
theorem C52_total {t : Text} (h : IsNumber (enc t)) : ∃ r, Visited t r := DeSpec.visited_total h

example : Visited "-0".toList (.ok (.int .i64 0)) := .i64 0 (by decide)
example : Visited "18446744073709551615".toList (.ok (.int .u64 18446744073709551615)) := .u64 18446744073709551615 (by decide)
example : Visited "18446744073709551616".toList (.ok (.int .u128 18446744073709551616)) := .u128 18446744073709551616 (by decide) (by decide)
example : Visited "1e1".toList (.ok (.f64 "1e1".toList)) := .float _ (by decide)
/-- the `1` of the document `[1, {"a": "b"}]` -/
example : ∃ rs, execDe 4 Settings.default exSched [.beginArray] (De.run 128 (.call .any (DeSpec.primVis .ok) id)) [.beginObject, .nextName] = .ret (.ok (.int .u64 1), rs) () ∧
    rs.map view = [.ok .unit, .ok (.text ['a'])] :=
  C52_visited (N := 4) (max := 128) (post := [.beginObject, .nextName]) (pre := [.beginArray]) (k := ⟨[.array 0 [.num ['1'], .obj [(['a'], .str ['b'])]]], false, [exValue], false⟩)
    (by decide) ex_delivers ex_valid rfl rfl rfl (by decide) (.u64 1 (by decide)) rfl

/-! ## Data -/

/-- **C51** An implementation of `Deserialize` which uses `deserialize_any` is given the data of the document; afterwards only whitespace follows -/
theorem C51_data (hN : 0 < N) (hd : Delivers sched bytes none) (hv : Valid st bytes [v]) {x : Data} (hx : ofJson v = some x) (hmax : x.depth ≤ max)
    (hlim : ∀ n, st.maxNestingDepth = some n → x.depth ≤ n) (hnum : st.restrictNumberValues = true → ∀ t ∈ numbers v, unsupportedNumber t = false) {n : Nat} (hn : steps v ≤ n) :
    execDe N st sched [] (De.run max (anyDe n)) [.consumeTrailingWhitespace] = .ret (.ok x, [.ok .unit]) () := by
  have hdep := DeSpec.ofJson_depth v hx
  obtain ⟨rs, h1, h2⟩ := C53_value (post := [.consumeTrailingWhitespace]) hN hd hv (pre := []) (k := .init [v]) rfl rfl rfl
    (DeSpec.any_value v hn (env := envAt st (.init [v]) max) ⟨show 0 + depth v ≤ max by omega, fun m hm => by have := hlim m hm; show 0 + depth v ≤ m; omega, hnum⟩ hx) rfl
  rw [h1]
  replace h2 : rs.map view = [.ok .unit] := h2
  cases rs with
  | nil => cases h2
  | cons r rs =>
    injection h2 with h2 h3
    cases rs with
    | cons => cases h3
    | nil =>
      cases r with
      | error e => cases h2
      | ok o => cases o <;> first | rfl | cases h2

example : execDe 4 Settings.default exSched [] (De.run 2 (anyDe 20)) [.consumeTrailingWhitespace] = .ret (.ok (.seq [.int 1, .map [(['a'], .str ['b'])]]), [.ok .unit]) () :=
  C51_data (by decide) ex_delivers ex_valid rfl (by decide) (by intro n hn; cases hn; decide) (by intro _; decide) (by decide)

/-- **C51** A value which is serialized and deserialized again: its data is preserved -/
theorem C51_round_trip (hN : 0 < N) (hN' : 0 < N') (wst : WSettings) {sink : Sink} (hrel : sink.Reliable) (hsink : sink.received = []) {v : SVal} (hv : Ok v) {x : Data} (hx : ofSer v = some x)
    (hmax : x.depth ≤ max) (hlim : ∀ n, st.maxNestingDepth = some n → x.depth ≤ n) (hfl : st.restrictNumberValues = true → ∀ t ∈ x.floats, unsupportedNumber t = false) :
    ∃ sk, Ser.execSer N wst sink [] v [.finishDocument] = (.ok ⟨[], some (.ok ()), [.ok .unit]⟩, sk) ∧ ∃ n0, ∀ n, n0 ≤ n → ∀ sched, Delivers sched sk.received none →
      execDe N' st sched [] (De.run max (anyDe n)) [.consumeTrailingWhitespace] = .ret (.ok x, [.ok .unit]) () := by
  obtain ⟨j, h1, h2⟩ := DeSpec.ser_json v hx
  obtain ⟨sk, out, h3, h4, h5⟩ := C48_document (wst := wst) hN hv h1 hrel
  rw [hsink] at h4
  replace h4 : sk.received = out := h4
  refine ⟨sk, h3, steps j, fun n hn sched hd => ?_⟩
  rw [h4] at hd
  refine C51_data hN' hd (valid_of_doc (h5 _)) h2.data hmax hlim (fun hr t ht => ?_) hn
  rcases h2.numbers t ht with h | ⟨i, h6, rfl⟩
  · exact hfl hr t h
  · exact DeSpec.decimal_supported h6

example : Ok (.struct 2 [(['a'], .int .i8 (-5)), (['b'], .some (.seq none [.unit, .bytes [7], .map (some 1) [.key (.str ['c']), .value (.bool true)]]))]) ∧
    ofSer (.struct 2 [(['a'], .int .i8 (-5)), (['b'], .some (.seq none [.unit, .bytes [7], .map (some 1) [.key (.str ['c']), .value (.bool true)]]))]) =
      some (.map [(['a'], .int (-5)), (['b'], .seq [.unit, .seq [.int 7], .map [(['c'], .bool true)]])]) :=
  ⟨⟨trivial, ⟨trivial, trivial, ⟨trivial, trivial, trivial⟩, trivial⟩, trivial⟩, rfl⟩

end Verif.Props
