import Verif.Proofs.De.Exec
import Verif.Spec.DeAny
import Verif.Props.Cursor
/-!
# The Serde deserializer

`DeSpec.value env v d` (`Verif/Spec/De.lean`): what the implementation `d` of `Deserialize` returns when it is given the JSON value `v`. The theorems
are about a program which calls methods of a stream reader (`pre`), uses a deserializer, and calls further methods of the reader (`post`).

`(Cursor.run st post k.advance).length = post.length`: all calls of `post` are specified (`Verif/Spec/Cursor.lean`) behind the value.
-/

namespace Verif.Props
open Reader Json Cursor De
open Abs (RepC repC_new)
open DeSpec (Env Ans DKind Propagates)

variable {N : Nat} {st : Settings} {sched : List ReadEvent} {bytes : Bytes} {vs : List JVal} {pre post : List Op} {k : Cur} {v : JVal} {V : Type} {max : Nat} {d : De V}

/-- the environment at a place, for a new deserializer -/
def envAt (st : Settings) (k : Cur) (max : Nat) : Env := ⟨st, max, k.frames.length, 0⟩

theorem exec_reached (hN : 0 < N) (hd : Delivers sched bytes none) (hv : Valid st bytes vs) (hr : reach st pre (.init vs) = some k) :
    ∃ T s, RepC st T k s ∧ ∀ (V : Type) (t : Calls Op OpRes (Except DErr V)) post, execDe N st sched pre t post = ((t.bind (afterDe post)).run handle (some s)).forget := by
  obtain ⟨hm, t, hok, rfl, rfl⟩ := hv
  obtain ⟨s, h1, h2⟩ := calls_run pre (repC_new (st := st) hok hm) hr
  refine ⟨t, s, h1, fun V c post => ?_⟩
  unfold execDe
  rw [run_abs hN hd]
  exact congrArg _ (h2 _ _)

/-- the code behind `De.run` -/
theorem run_run {s : Option (RState AbsSrc)} {β : Type} (f : Except DErr V → Calls Op OpRes β) : ((De.run max d).bind f).run handle s = match ((deserialize max d).run 0).run handle s with
    | .ret (r, _) s' => (f r).run handle s'
    | .panic p => .panic p
    | .unspecified => .unspecified := by
  unfold De.run
  rw [Calls.bind_assoc, Calls.run_bind]
  cases ((deserialize max d).run 0).run handle s with
  | ret a s' => rfl
  | panic p => rfl
  | unspecified => rfl

theorem value_at {T : Tops} {s : RState AbsSrc} (h1 : RepC st T k s) (hc : k.canValue st.allowMultipleTopLevel = true) (hk : k.next = some v) {x : V} (hx : DeSpec.value (envAt st k max) v d = .ok x)
    (hp : (Cursor.run st post k.advance).length = post.length) :
    ∃ rs, (((De.run max d).bind (afterDe post)).run handle (some s)).forget = .ret (.ok x, rs) () ∧ rs.map view = Cursor.run st post k.advance := by
  have h3 := deserialize_meets (T := T) (b := ⟨False, False⟩) d nofun nofun (k := k) (env := envAt st k max) (x := v) ⟨hc, hk, rfl, rfl, rfl⟩ (some s) ⟨s, rfl, h1⟩
  rw [hx] at h3
  obtain ⟨_, _, s', h4, ⟨s1, rfl, h5⟩, rfl, rfl⟩ := h3
  obtain ⟨rs, h7, h8⟩ := results_run post h5 hp
  refine ⟨rs, ?_, h7⟩
  replace h4 : ((deserialize max d).run 0).run handle (some s) = .ret (.ok _, 0) (some s1) := h4
  rw [run_run, h4]
  dsimp only
  rw [afterDe]
  exact h8 _ _

theorem error_at {T : Tops} {s : RState AbsSrc} (h1 : RepC st T k s) (hc : k.canValue st.allowMultipleTopLevel = true) (hk : k.next = some v) (ha : Propagates d) {e : DKind}
    (hx : DeSpec.value (envAt st k max) v d = .err e) :
    ∃ y, (((De.run max d).bind (afterDe post)).run handle (some s)).forget = .ret (.error y, []) () ∧ DeSpec.kind y = e := by
  have h3 := deserialize_meets (T := T) (b := ⟨True, False⟩) d (fun _ => ha) nofun (k := k) (env := envAt st k max) (x := v) ⟨hc, hk, rfl, rfl, rfl⟩ (some s) ⟨s, rfl, h1⟩
  rw [hx] at h3
  obtain ⟨y, d', s', h4, h5⟩ := h3 trivial
  refine ⟨y, ?_, h5⟩
  replace h4 : ((deserialize max d).run 0).run handle (some s) = .ret (.error y, d') s' := h4
  rw [run_run, h4]
  rfl

theorem misuse_at {T : Tops} {s : RState AbsSrc} (h1 : RepC st T k s) (hc : k.canValue st.allowMultipleTopLevel = true) (hk : k.next = some v) (hu : DeSpec.Uses d)
    (hx : DeSpec.value (envAt st k max) v d = .misuse) : ∃ p, (((De.run max d).bind (afterDe post)).run handle (some s)).forget = .panic p ∧ DeSpec.Misused p := by
  have h3 := deserialize_meets (T := T) (b := ⟨False, True⟩) d nofun (fun _ => hu) (k := k) (env := envAt st k max) (x := v) ⟨hc, hk, rfl, rfl, rfl⟩ (some s) ⟨s, rfl, h1⟩
  rw [hx] at h3
  rcases h3 trivial with ⟨p, h4, h5⟩ | ⟨_, _, _, _, h5⟩
  · refine ⟨p, ?_, h5⟩
    replace h4 : ((deserialize max d).run 0).run handle (some s) = .panic p := h4
    rw [run_run, h4]
    rfl
  · exact h5.elim

/-- `deserialize_next` first peeks -/
theorem next_run {T : Tops} {s : RState AbsSrc} (h1 : RepC st T k s) (hc : k.canValue st.allowMultipleTopLevel = true) (hk : k.next = some v) :
    ∃ s', RepC st T k s' ∧ ∀ {β : Type} (f : Except DErr V → Calls Op OpRes β), ((deserializeNext d).bind f).run handle (some s) = ((De.run defaultMaxNestingDepth d).bind f).run handle (some s') := by
  have hs : Cursor.step st k .peek = .ok (.type (typeOf v)) k := by
    unfold Cursor.step Cursor.withValue
    dsimp only
    rw [hc, hk]
    rfl
  have h2 := handle_step (T := T) (op := .peek) (by nofun) ⟨s, rfl, h1⟩
  rw [hs] at h2
  obtain ⟨o, s', h3, _, s1, rfl, h4⟩ := h2
  refine ⟨s1, h4, fun f => ?_⟩
  unfold deserializeNext
  rw [Calls.bind, Calls.run, h3]

/-- **C53** Deserializing from a document gives what is specified for the value; afterwards the reader is behind the value. -/
theorem C53_value (hN : 0 < N) (hd : Delivers sched bytes none) (hv : Valid st bytes vs) (hr : reach st pre (.init vs) = some k)
    (hc : k.canValue st.allowMultipleTopLevel = true) (hk : k.next = some v) {x : V} (hx : DeSpec.value (envAt st k max) v d = .ok x) (hp : (Cursor.run st post k.advance).length = post.length) :
    ∃ rs, execDe N st sched pre (De.run max d) post = .ret (.ok x, rs) () ∧ rs.map view = Cursor.run st post k.advance := by
  obtain ⟨T, s, h1, h2⟩ := exec_reached hN hd hv hr
  rw [h2]
  exact value_at h1 hc hk hx hp

/-- **C53** If an error is specified for the value then this error is returned, provided that the implementation passes on errors. -/
theorem C53_error (hN : 0 < N) (hd : Delivers sched bytes none) (hv : Valid st bytes vs) (hr : reach st pre (.init vs) = some k)
    (hc : k.canValue st.allowMultipleTopLevel = true) (hk : k.next = some v) (ha : Propagates d) {e : DKind} (hx : DeSpec.value (envAt st k max) v d = .err e) :
    ∃ y, execDe N st sched pre (De.run max d) post = .ret (.error y, []) () ∧ DeSpec.kind y = e := by
  obtain ⟨T, s, h1, h2⟩ := exec_reached hN hd hv hr
  rw [h2]
  exact error_at h1 hc hk ha hx

/-- **C53** If `MapAccess` or `EnumAccess` are not used as documented then there is one of the documented panics, provided that the implementation uses its deserializer; also
if it does not pass on errors. With `C53_value` and `C53_error` all cases are covered. -/
theorem C53_misuse (hN : 0 < N) (hd : Delivers sched bytes none) (hv : Valid st bytes vs) (hr : reach st pre (.init vs) = some k)
    (hc : k.canValue st.allowMultipleTopLevel = true) (hk : k.next = some v) (hu : DeSpec.Uses d) (hx : DeSpec.value (envAt st k max) v d = .misuse) :
    ∃ p, execDe N st sched pre (De.run max d) post = .panic p ∧ DeSpec.Misused p := by
  obtain ⟨T, s, h1, h2⟩ := exec_reached hN hd hv hr
  rw [h2]
  exact misuse_at h1 hc hk hu hx

/-- the value of the member in `[1, {"a": "b"}]` -/
example : ∃ rs, execDe 4 Settings.default exSched [.beginArray, .skipValue, .beginObject, .nextName] (De.run 128 DeSpec.stringDe) [.endObject, .hasNext] = .ret (.ok (.str ['b']), rs) () ∧
    rs.map view = [.ok .unit, .ok (.bool false)] :=
  C53_value (N := 4) (d := DeSpec.stringDe) (max := 128) (post := [.endObject, .hasNext]) (pre := [.beginArray, .skipValue, .beginObject, .nextName]) (by decide) ex_delivers ex_valid
    (k := ⟨[.value ['a'] (.str ['b']) [], .array 1 [.obj [(['a'], .str ['b'])]]], false, [exValue], false⟩) rfl rfl rfl rfl rfl

/-- `deserialize_string` for an array -/
example : ∃ y, execDe 4 Settings.default exSched [] (De.run 128 DeSpec.stringDe) [] = .ret (.error y, []) () ∧ DeSpec.kind y = .reader (.type .string .array) := by
  refine C53_error (N := 4) (by decide) ex_delivers ex_valid rfl rfl rfl ?_ rfl
  unfold DeSpec.stringDe DeSpec.primVis
  rw [Propagates, DeSpec.Aborts, DeSpec.AbortsVis, DeSpec.Aborts, DeSpec.AbortsSeq, DeSpec.AbortsMap, DeSpec.AbortsEnum]
  exact ⟨⟨trivial, trivial, trivial, trivial, trivial⟩, fun e => ⟨e, rfl, rfl⟩⟩

/-- **C53** `deserialize_next` is a deserializer with the nesting limit 128 -/
theorem C53_next_value (hN : 0 < N) (hd : Delivers sched bytes none) (hv : Valid st bytes vs) (hr : reach st pre (.init vs) = some k)
    (hc : k.canValue st.allowMultipleTopLevel = true) (hk : k.next = some v) {x : V} (hx : DeSpec.value (envAt st k 128) v d = .ok x) (hp : (Cursor.run st post k.advance).length = post.length) :
    ∃ rs, execDe N st sched pre (deserializeNext d) post = .ret (.ok x, rs) () ∧ rs.map view = Cursor.run st post k.advance := by
  obtain ⟨T, s, h1, h2⟩ := exec_reached hN hd hv hr
  obtain ⟨s', h3, h4⟩ := next_run (d := d) h1 hc hk
  rw [h2, h4]
  exact value_at h3 hc hk hx hp

theorem C53_next_error (hN : 0 < N) (hd : Delivers sched bytes none) (hv : Valid st bytes vs) (hr : reach st pre (.init vs) = some k)
    (hc : k.canValue st.allowMultipleTopLevel = true) (hk : k.next = some v) (ha : Propagates d) {e : DKind} (hx : DeSpec.value (envAt st k 128) v d = .err e) :
    ∃ y, execDe N st sched pre (deserializeNext d) post = .ret (.error y, []) () ∧ DeSpec.kind y = e := by
  obtain ⟨T, s, h1, h2⟩ := exec_reached hN hd hv hr
  obtain ⟨s', h3, h4⟩ := next_run (d := d) h1 hc hk
  rw [h2, h4]
  exact error_at h3 hc hk ha hx

theorem C53_next_misuse (hN : 0 < N) (hd : Delivers sched bytes none) (hv : Valid st bytes vs) (hr : reach st pre (.init vs) = some k)
    (hc : k.canValue st.allowMultipleTopLevel = true) (hk : k.next = some v) (hu : DeSpec.Uses d) (hx : DeSpec.value (envAt st k 128) v d = .misuse) :
    ∃ p, execDe N st sched pre (deserializeNext d) post = .panic p ∧ DeSpec.Misused p := by
  obtain ⟨T, s, h1, h2⟩ := exec_reached hN hd hv hr
  obtain ⟨s', h3, h4⟩ := next_run (d := d) h1 hc hk
  rw [h2, h4]
  exact misuse_at h3 hc hk hu hx

end Verif.Props
