import Verif.Proofs.SimpleReader.MultiLoop
/-! # The Simple reader API: the methods, and closures which use them -/

namespace Verif.SimpleReader
open Reader Json Cursor
open Abs (St RepC)
open SimpleReaderSpec (SKind Ans Env each visit joinAll Passes PassesStr PassesArr PassesVal PassesMem Pass Stops StopsArr StopsVal StopsMem)

variable {V : Type} {st : Settings} {T : Tops} {b : Meets.Cond} {k : Cur} {fuel : Nat} {env : Env} {v : JVal}

/-! ## `deserialize_next` -/

theorem deserializeNext_run (d : De.De V) (s : Rd AbsSrc) : ((deserializeNext d).run none).run perform (some s) = match (De.deserializeNext d).run Reader.handle (some s.rd) with
    | .ret (.ok x) s' => .ret (.ok x, none) (s'.map fun rd => ⟨rd, s.sr⟩)
    | .ret (.error e) s' => .ret (.error (.de e), some (toStore (.de e))) (s'.map fun rd => ⟨rd, s.sr⟩)
    | .panic p => .panic p
    | .unspecified => .unspecified := by
  unfold deserializeNext
  rw [useDelegate_run]
  have h : perform (SCall.deserialize d) (some s) = withReader s.sr ((De.deserializeNext d).run Reader.handle (some s.rd)) := rfl
  rw [h]
  cases (De.deserializeNext d).run Reader.handle (some s.rd) with
  | ret r s' => cases r <;> rfl
  | panic p => rfl
  | unspecified => rfl

theorem next_peek {s : RState AbsSrc} (d : De.De V) (h1 : RepC st T k s) (hc : k.canValue st.allowMultipleTopLevel = true) (hk : k.next = some v) :
    ∃ s', RepC st T k s' ∧ (De.deserializeNext d).run handle (some s) = (De.run De.defaultMaxNestingDepth d).run handle (some s') := by
  have hs : Cursor.step st k .peek = .ok (.type (typeOf v)) k := by
    unfold Cursor.step
    dsimp only
    rw [withValue_some hc hk]
  have h2 := handle_step (T := T) (op := .peek) (by nofun) ⟨s, rfl, h1⟩
  rw [hs] at h2
  obtain ⟨o, s', h3, _, s1, rfl, h4⟩ := h2
  refine ⟨s1, h4, ?_⟩
  unfold De.deserializeNext
  rw [Calls.run, h3]

theorem de_run {d : De.De V} {max : Nat} {s : Option (RState AbsSrc)} : (De.run max d).run handle s = match ((De.deserialize max d).run 0).run handle s with
    | .ret (r, _) s' => .ret r s'
    | .panic p => .panic p
    | .unspecified => .unspecified := by
  unfold De.run
  rw [Calls.run_bind]
  cases ((De.deserialize max d).run 0).run handle s with
  | ret a s' => rfl
  | panic p => rfl
  | unspecified => rfl

theorem deserialize_meets (d : De.De V) (hb : b → DeSpec.Propagates d) (hu : b.strict → DeSpec.Uses d) (h : Here st fuel k env v) :
    SMeets st T b (deserializeNext d) (.cur k) (SimpleReaderSpec.deserialized env v d) (To k.advance) := by
  rintro s ⟨rd, sr, rfl, hs⟩
  obtain ⟨rd', h1, h2⟩ := next_peek d hs h.can h.next
  have h3 := De.deserialize_meets (T := T) d hb hu (k := k) (max := 128) (env := ⟨env.st, 128, env.opened, 0⟩) (x := v) ⟨h.can, h.next, h.opened, h.st, rfl⟩ (some rd') ⟨rd', rfl, h1⟩
  unfold SimpleReaderSpec.deserialized
  rw [deserializeNext_run, h2, de_run]
  cases hv : DeSpec.value ⟨env.st, 128, env.opened, 0⟩ v d with
  | ok x =>
    rw [hv] at h3
    obtain ⟨a, k', s', h4, ⟨rd1, rfl, h5⟩, rfl, rfl⟩ := h3
    have h6 : ((De.deserialize De.defaultMaxNestingDepth d).run 0).run handle (some rd') = .ret (.ok a, 0) (some rd1) := h4
    rw [h6]
    exact ⟨a, .cur k.advance, some ⟨rd1, sr⟩, rfl, ⟨rd1, sr, rfl, h5⟩, rfl, rfl⟩
  | err e =>
    rw [hv] at h3
    intro hb'
    obtain ⟨y, d', s', h4, h5⟩ := h3 hb'
    have h6 : ((De.deserialize De.defaultMaxNestingDepth d).run 0).run handle (some rd') = .ret (.error y, d') s' := h4
    rw [h6]
    exact ⟨.de y, _, _, rfl, congrArg _ h5⟩
  | misuse =>
    rw [hv] at h3
    intro hb'
    rcases h3 hb' with ⟨p, h4, h5⟩ | ⟨_, _, _, _, h5⟩
    · have h6 : ((De.deserialize De.defaultMaxNestingDepth d).run 0).run handle (some rd') = .panic p := h4
      exact .inl ⟨p, by rw [h6], .inr h5⟩
    · exact h5.elim

/-! ## Values of another type, and the end of an array -/

theorem op_wrong {op : Op} {expected : ValueType} {P : JVal → Step} (h : Here st fuel k env v) (hop : Cursor.step st k op = Cursor.withValue st k P) (hP : P v = Cursor.wrongType k expected v) :
    stepAnswer (Cursor.step st k op) = .err (.type expected (typeOf v)) := by
  rw [hop, h.withValue, hP]
  rfl

theorem withValue_end (hk : k.str = false) (i : Nat) (f : JVal → Step) : Cursor.withValue st (k.push (.array i [])) f = .err (.structure .fewerElementsThanExpected) (k.push (.array i [])) := by
  unfold Cursor.withValue
  rw [show Cur.canValue st.allowMultipleTopLevel (k.push (.array i [])) = true by unfold Cur.canValue Cur.push; dsimp only; rw [hk]; rfl]
  rfl

theorem op_end {op : Op} (hk : k.str = false) (i : Nat) (hop : ∀ c, ∃ P, Cursor.step st c op = Cursor.withValue st c P) :
    stepAnswer (Cursor.step st (k.push (.array i [])) op) = .err (.structure .fewerElementsThanExpected) := by
  obtain ⟨P, hop⟩ := hop (k.push (.array i []))
  rw [hop, withValue_end hk]
  rfl

theorem multiLoop_first (path : List PartialPath) (f : V → X V (V × Bool)) (n i : Nat) (down hm : Bool) (x : V) (p : PartialPath) (h : path[i]? = some p) :
    ∃ F, multiLoop fuel path f n i down hm x = multiPiece fuel i down p >>= F := by
  rw [multiLoop.eq_def, h]
  exact ⟨_, rfl⟩

theorem multiPiece_end {n i : Nat} (hk : k.str = false) : (p : PartialPath) →
    SMeets st T b (multiPiece fuel n true p : X V (Nat × Bool)) (.cur (k.push (.array i []))) (.err (.reader (.structure .fewerElementsThanExpected)) : Ans Unit) (fun _ _ _ => True)
  | .jsonPath _ => err_bind (unitCall_err (by nofun) (op_end hk i fun _ => ⟨_, rfl⟩) (by nofun))
  | .allArrayItems _ => by
    exact err_bind (id (unitCall_err (by nofun) (op_end hk i fun _ => ⟨_, rfl⟩) (by nofun)))
  | .optionalObjectMember _ => err_bind (unitCall_err (by nofun) (op_end hk i fun _ => ⟨_, rfl⟩) (by nofun))
  | .allObjectMembers _ => by
    exact err_bind (id (unitCall_err (by nofun) (op_end hk i fun _ => ⟨_, rfl⟩) (by nofun)))

theorem deserialize_end {i : Nat} {γ : Type} {P : γ → V → Place → Prop} (hk : k.str = false) (d : De.De V) :
    SMeets st T b (deserializeNext d) (.cur (k.push (.array i []))) (.err (.de (.reader (.structure .fewerElementsThanExpected)))) P := by
  rintro s ⟨rd, sr, rfl, hs⟩ _
  have h2 := handle_step (T := T) (op := .peek) (by nofun) ⟨rd, rfl, hs⟩
  rw [op_end hk i fun _ => ⟨_, rfl⟩] at h2
  obtain ⟨x, s', h3, h4⟩ := h2 (by nofun)
  refine ⟨.de (.reader x), some (toStore (.de (.reader x))), s'.map fun rd => ⟨rd, sr⟩, ?_, ?_⟩
  · rw [deserializeNext_run]
    unfold De.deserializeNext
    rw [Calls.run, h3]
    rfl
  · exact congrArg (fun e => SKind.de (.reader e)) h4

/-! ### Another item is read although there is none -/

mutual
theorem noItem_err : (o : ValOp V) → ∃ e, ∀ {α : Type}, (SimpleReaderSpec.noItem o : Ans α) = .err e
  | .seekedMulti [] one init f => by
    obtain ⟨e, he⟩ := noItemClosure_err (f init)
    exact ⟨e, fun {α} => by rw [SimpleReaderSpec.noItem.eq_def]; exact he⟩
  | .seekedMulti (p0 :: ps) one init f => ⟨_, fun {α} => by rw [SimpleReaderSpec.noItem.eq_def]⟩
  | .null => ⟨_, fun {α} => by rw [SimpleReaderSpec.noItem.eq_def]⟩
  | .bool => ⟨_, fun {α} => by rw [SimpleReaderSpec.noItem.eq_def]⟩
  | .str f => ⟨_, fun {α} => by rw [SimpleReaderSpec.noItem.eq_def]⟩
  | .string => ⟨_, fun {α} => by rw [SimpleReaderSpec.noItem.eq_def]⟩
  | .stringReader f => ⟨_, fun {α} => by rw [SimpleReaderSpec.noItem.eq_def]⟩
  | .number => ⟨_, fun {α} => by rw [SimpleReaderSpec.noItem.eq_def]⟩
  | .numberString => ⟨_, fun {α} => by rw [SimpleReaderSpec.noItem.eq_def]⟩
  | .deserialize d => ⟨_, fun {α} => by rw [SimpleReaderSpec.noItem.eq_def]⟩
  | .skip => ⟨_, fun {α} => by rw [SimpleReaderSpec.noItem.eq_def]⟩
  | .array f => ⟨_, fun {α} => by rw [SimpleReaderSpec.noItem.eq_def]⟩
  | .arrayItems init f => ⟨_, fun {α} => by rw [SimpleReaderSpec.noItem.eq_def]⟩
  | .objectBorrowed init f => ⟨_, fun {α} => by rw [SimpleReaderSpec.noItem.eq_def]⟩
  | .objectOwned init f => ⟨_, fun {α} => by rw [SimpleReaderSpec.noItem.eq_def]⟩
  | .seeked path f => ⟨_, fun {α} => by rw [SimpleReaderSpec.noItem.eq_def]⟩
theorem noItemClosure_err : (f : ValC V) → ∃ e, ∀ {α : Type}, (SimpleReaderSpec.noItemClosure f : Ans α) = .err e
  | .ret (.ok x) => ⟨_, fun {α} => by rw [SimpleReaderSpec.noItemClosure.eq_def]⟩
  | .ret (.error e) => ⟨_, fun {α} => by rw [SimpleReaderSpec.noItemClosure.eq_def]⟩
  | .peek f => ⟨_, fun {α} => by rw [SimpleReaderSpec.noItemClosure.eq_def]⟩
  | .op o f => by
    obtain ⟨e, he⟩ := noItem_err o
    exact ⟨e, fun {α} => by rw [SimpleReaderSpec.noItemClosure.eq_def]; exact he⟩
end

theorem noItem_simple {i : Nat} {γ : Type} {P : γ → Got V → Place → Prop} (hk : k.str = false) (o : ValOp V) (ho : ∀ path one init f, o ≠ .seekedMulti path one init f) :
    SMeets st T b (value fuel o) (.cur (k.push (.array i []))) (SimpleReaderSpec.noItem o) P := by
  have hu : ∀ {β γ : Type} {op : Op} {f : Unit → X V β} {P : γ → β → Place → Prop}, op ≠ .consumeTrailingWhitespace →
      (∀ c, ∃ F, Cursor.step st c op = Cursor.withValue st c F) →
      SMeets st T b (unitCall op >>= f) (.cur (k.push (.array i []))) (.err (.reader (.structure .fewerElementsThanExpected))) P :=
    fun h1 h2 => err_bind (unitCall_err h1 (op_end hk i h2) (by nofun))
  have ht : ∀ {β γ : Type} {op : Op} {f : Text → X V β} {P : γ → β → Place → Prop}, op ≠ .consumeTrailingWhitespace →
      (∀ c, ∃ F, Cursor.step st c op = Cursor.withValue st c F) →
      SMeets st T b (textCall op >>= f) (.cur (k.push (.array i []))) (.err (.reader (.structure .fewerElementsThanExpected))) P :=
    fun h1 h2 => err_bind (textCall_err h1 (op_end hk i h2) (by nofun))
  cases o with
  | null => rw [value, SimpleReaderSpec.noItem.eq_def]; exact hu (by nofun) fun _ => ⟨_, rfl⟩
  | bool => rw [value, SimpleReaderSpec.noItem.eq_def]; exact err_bind (boolCall_err (by nofun) (op_end hk i fun _ => ⟨_, rfl⟩) (by nofun))
  | str f => rw [value, SimpleReaderSpec.noItem.eq_def]; exact ht (by nofun) fun _ => ⟨_, rfl⟩
  | string => rw [value, SimpleReaderSpec.noItem.eq_def]; exact ht (by nofun) fun _ => ⟨_, rfl⟩
  | stringReader f =>
    rw [value, SimpleReaderSpec.noItem.eq_def]
    unfold readStringWithReader
    rw [CT.bind_assoc]
    refine err_bind (string_start_err ?_ (by nofun))
    unfold Cursor.step
    dsimp only
    rw [withValue_end hk]
  | number => rw [value, SimpleReaderSpec.noItem.eq_def]; exact ht (by nofun) fun _ => ⟨_, rfl⟩
  | numberString => rw [value, SimpleReaderSpec.noItem.eq_def]; exact ht (by nofun) fun _ => ⟨_, rfl⟩
  | deserialize d => rw [value, SimpleReaderSpec.noItem.eq_def]; exact err_bind (deserialize_end hk d)
  | skip => rw [value, SimpleReaderSpec.noItem.eq_def]; exact hu (by nofun) fun _ => ⟨_, rfl⟩
  | array f => rw [value, SimpleReaderSpec.noItem.eq_def]; exact hu (by nofun) fun _ => ⟨_, rfl⟩
  | arrayItems init f => rw [value, SimpleReaderSpec.noItem.eq_def]; exact hu (by nofun) fun _ => ⟨_, rfl⟩
  | objectBorrowed init f => rw [value, SimpleReaderSpec.noItem.eq_def]; exact hu (by nofun) fun _ => ⟨_, rfl⟩
  | objectOwned init f => rw [value, SimpleReaderSpec.noItem.eq_def]; exact hu (by nofun) fun _ => ⟨_, rfl⟩
  | seeked path f => rw [value, SimpleReaderSpec.noItem.eq_def]; exact hu (by nofun) fun _ => ⟨_, rfl⟩
  | seekedMulti path one init f => exact absurd rfl (ho path one init f)

theorem noItem_multi {i : Nat} {γ : Type} {P : γ → Got V → Place → Prop} (hk : k.str = false) (p0 : MultiPiece) (ps : List MultiPiece) (one : Bool) (init : V) (f : V → ValC V) :
    SMeets st T b (value fuel (.seekedMulti (p0 :: ps) one init f)) (.cur (k.push (.array i []))) (.err (.reader (.structure .fewerElementsThanExpected)) : Ans γ) P := by
  obtain ⟨path, hpath⟩ : ∃ path, path = p0 :: ps := ⟨_, rfl⟩
  rw [← hpath]
  rw [value]
  unfold readSeekedMulti
  rw [if_neg (by rw [hpath]; nofun)]
  have hlen := convertPath_length (path := path) (by rw [hpath]; nofun)
  obtain ⟨F, hF⟩ := multiLoop_first (fuel := fuel) (convertPath path) (fun v => valC fuel (f v)) fuel 0 true false init _ (List.getElem?_eq_getElem hlen)
  have key : ∀ loc : Option Position, SMeets st T b (do
      let (v, hasMatch) ← multiLoop fuel (convertPath path) (fun v => valC fuel (f v)) fuel 0 true false init
      if one && !hasMatch then do
        storeNoMatch loc
        CT.fail (.noMatch loc)
      else pure v : X V V) (.cur (k.push (.array i []))) (.err (.reader (.structure .fewerElementsThanExpected)) : Ans Unit) (fun _ _ _ => True) := by
    intro loc
    rw [hF, CT.bind_assoc]
    exact err_bind (multiPiece_end hk _)
  refine err_bind ?_
  cases one with
  | false => exact key none
  | true =>
    show SMeets st T b (currentPosition true >>= _) _ _ _
    refine Meets.bind' (ans := (.ok () : Ans Unit)) (position_ok true ⟨_, rfl⟩) ⟨fun _ => _, rfl, fun _ a q hq _ => ?_⟩
    cases hq
    exact key a

theorem pass_run {α : Type} {r : Except SErr V} {e : SErr} (h : r = .error e) (f : V → X V α) (d : Option Stored) : ((CT.ofExcept r : X V V) >>= f).run d = .ret (.error e, d) := by
  subst h
  rfl

mutual
theorem noItem_meets : (o : ValOp V) → (b → Passes o) → ∀ {k : Cur} {i : Nat} {γ : Type} {P : γ → Got V → Place → Prop}, k.str = false →
    SMeets st T b (value fuel o) (.cur (k.push (.array i []))) (SimpleReaderSpec.noItem o : Ans γ) P
  | .seekedMulti [] one init f, hb, k, i, γ, P, hk => by
    rw [value, SimpleReaderSpec.noItem.eq_def]
    have h := noItemClosure_meets (f init) (fun h => by have := hb h; rw [Passes] at this; exact this init) hk (i := i) (γ := Unit) (P := fun _ _ _ => True)
    obtain ⟨e, he⟩ := noItemClosure_err (f init)
    dsimp only
    rw [he] at h ⊢
    exact err_bind (by unfold readSeekedMulti; exact h)
  | .seekedMulti (p0 :: ps) one init f, hb, k, i, γ, P, hk => by
    rw [SimpleReaderSpec.noItem.eq_def]
    exact noItem_multi hk p0 ps one init f
  | .null, hb, k, i, γ, P, hk => noItem_simple hk _ nofun
  | .bool, hb, k, i, γ, P, hk => noItem_simple hk _ nofun
  | .str f, hb, k, i, γ, P, hk => noItem_simple hk _ nofun
  | .string, hb, k, i, γ, P, hk => noItem_simple hk _ nofun
  | .stringReader f, hb, k, i, γ, P, hk => noItem_simple hk _ nofun
  | .number, hb, k, i, γ, P, hk => noItem_simple hk _ nofun
  | .numberString, hb, k, i, γ, P, hk => noItem_simple hk _ nofun
  | .deserialize d, hb, k, i, γ, P, hk => noItem_simple hk _ nofun
  | .skip, hb, k, i, γ, P, hk => noItem_simple hk _ nofun
  | .array f, hb, k, i, γ, P, hk => noItem_simple hk _ nofun
  | .arrayItems init f, hb, k, i, γ, P, hk => noItem_simple hk _ nofun
  | .objectBorrowed init f, hb, k, i, γ, P, hk => noItem_simple hk _ nofun
  | .objectOwned init f, hb, k, i, γ, P, hk => noItem_simple hk _ nofun
  | .seeked path f, hb, k, i, γ, P, hk => noItem_simple hk _ nofun
theorem noItemClosure_meets : (f : ValC V) → (b → PassesVal f) → ∀ {k : Cur} {i : Nat} {γ : Type} {P : γ → V → Place → Prop}, k.str = false →
    SMeets st T b (readValue (valC fuel f)) (.cur (k.push (.array i []))) (SimpleReaderSpec.noItemClosure f : Ans γ) P
  | .ret (.ok x), hb, k, i, γ, P, hk => by
    rw [valC, SimpleReaderSpec.noItemClosure.eq_def]
    show SMeets st T b (unitCall .skipValue >>= fun _ => pure x) _ _ _
    exact err_bind (unitCall_err (op := .skipValue) (by nofun) (op_end hk i fun _ => ⟨_, rfl⟩) (by nofun))
  | .ret (.error e), hb, k, i, γ, P, hk => by
    rw [valC, SimpleReaderSpec.noItemClosure.eq_def]
    exact Meets.fail rfl
  | .peek f, hb, k, i, γ, P, hk => by
    rw [valC, SimpleReaderSpec.noItemClosure.eq_def]
    dsimp only
    refine err_bind (Meets.attempt (ans := (.err _ : Ans Unit)) (P := fun _ _ _ => True) (l := fun _ => .misuse) (peek_err (op_end hk i fun _ => ⟨_, rfl⟩) (by nofun)) (fun x a p hp he => nomatch he) fun h e d' => ?_)
    have := hb h
    rw [PassesVal] at this
    obtain ⟨e', h1, h2⟩ := this.2 e
    rw [h1, valC]
    exact ⟨e', rfl, h2⟩
  | .op o f, hb, k, i, γ, P, hk => by
    rw [valC, SimpleReaderSpec.noItemClosure.eq_def]
    dsimp only
    have hb' : b → Passes o ∧ Pass fun e => f (.error e) := fun h => by
      have := hb h
      rwa [PassesVal] at this
    have h := noItem_meets o (fun h => (hb' h).1) hk (i := i) (γ := Unit) (P := fun _ _ _ => True)
    obtain ⟨e, he⟩ := noItem_err o
    rw [he] at h ⊢
    refine err_bind (Meets.attempt (ans := (.err _ : Ans Unit)) (P := fun _ _ _ => True) (l := fun _ => .misuse) h (fun x a p hp he => nomatch he) fun h e d' => ?_)
    obtain ⟨e', h1, h2⟩ := (hb' h).2 e
    exact ⟨e', pass_run h1 _ d', h2⟩
end

/-! ## Closures -/

/-- the value of the closure is given to another function -/
theorem got_meets {c : Place} {p : Place} {m : X V V} {ans : Ans V} (hm : SMeets st T b m p ans (fun x a q => a = x ∧ q = c)) :
    SMeets st T b (m >>= fun x => pure (.val x)) p (ans >>= fun x => pure (Got.val x)) (fun x a q => a = x ∧ q = c) := by
  refine hm.bind fun x a q h _ => ?_
  obtain ⟨rfl, rfl⟩ := h
  exact Meets.pure ⟨rfl, rfl⟩

theorem endArray_more (hk : k.str = false) (i : Nat) (v : JVal) (vs : List JVal) : stepAnswer (Cursor.step st (k.push (.array i (v :: vs))) .endArray) = .err (.structure .moreElementsThanExpected) := by
  unfold Cursor.step Cur.push
  dsimp only
  rw [if_neg (by rw [hk]; exact Bool.false_ne_true)]
  rfl

/-- wrong type -/
theorem wrong_unit {op : Op} {P : JVal → Step} {expected : ValueType} {β γ : Type} {f : Unit → X V β} {Q : γ → β → Place → Prop} (h : Here st fuel k env v) (hct : op ≠ .consumeTrailingWhitespace)
    (hop : Cursor.step st k op = Cursor.withValue st k P) (hP : P v = Cursor.wrongType k expected v) :
    SMeets st T b (unitCall op >>= f) (.cur k) (SimpleReaderSpec.wrongType expected v) Q := err_bind (unitCall_err hct (op_wrong h hop hP) (by nofun))

theorem wrong_text {op : Op} {P : JVal → Step} {expected : ValueType} {β γ : Type} {f : Text → X V β} {Q : γ → β → Place → Prop} (h : Here st fuel k env v) (hct : op ≠ .consumeTrailingWhitespace)
    (hop : Cursor.step st k op = Cursor.withValue st k P) (hP : P v = Cursor.wrongType k expected v) :
    SMeets st T b (textCall op >>= f) (.cur k) (SimpleReaderSpec.wrongType expected v) Q := err_bind (textCall_err hct (op_wrong h hop hP) (by nofun))

theorem wrong_bool {op : Op} {P : JVal → Step} {expected : ValueType} {β γ : Type} {f : Bool → X V β} {Q : γ → β → Place → Prop} (h : Here st fuel k env v) (hct : op ≠ .consumeTrailingWhitespace)
    (hop : Cursor.step st k op = Cursor.withValue st k P) (hP : P v = Cursor.wrongType k expected v) :
    SMeets st T b (boolCall op >>= f) (.cur k) (SimpleReaderSpec.wrongType expected v) Q := err_bind (boolCall_err hct (op_wrong h hop hP) (by nofun))

theorem number_meets {op : Op} (h : Here st fuel k env v) (hop : op = .nextNumberAsStr ∨ op = .nextNumberAsString) :
    SMeets st T b (textCall op >>= fun t => pure (Got.text t) : X V (Got V)) (.cur k) (SimpleReaderSpec.number env v >>= fun t => pure (.text t)) (To k.advance) := by
  have hct : op ≠ .consumeTrailingWhitespace := by rintro rfl; rcases hop with h | h <;> cases h
  have hs : Cursor.step st k op = Cursor.withValue st k fun
      | .num t => if st.restrictNumberValues && unsupportedNumber t then .stop (.number t) else .ok (.text t) k.advance
      | v => Cursor.wrongType k .number v := by rcases hop with rfl | rfl <;> rfl
  cases v with
  | num t =>
    unfold SimpleReaderSpec.number
    rw [h.st]
    dsimp only
    rw [h.withValue] at hs
    dsimp only at hs
    by_cases hr : (st.restrictNumberValues && unsupportedNumber t) = true
    · rw [if_pos hr] at hs ⊢
      exact err_bind (textCall_err hct (by rw [hs]; rfl) (by nofun))
    · rw [if_neg hr] at hs ⊢
      exact seq_ok (textCall_ok hct hs) (Meets.pure ⟨rfl, rfl⟩)
  | null => exact wrong_text h hct hs rfl
  | bool x => exact wrong_text h hct hs rfl
  | str x => exact wrong_text h hct hs rfl
  | arr x => exact wrong_text h hct hs rfl
  | obj x => exact wrong_text h hct hs rfl

theorem string_wrong {f : StrC V} {γ : Type} {P : γ → Got V → Place → Prop} (h : Here st fuel k env v) (hv : ∀ t, v ≠ .str t) :
    SMeets st T b (readStringWithReader fuel f >>= fun x => pure (.val x)) (.cur k) (SimpleReaderSpec.wrongType .string v) P := by
  unfold readStringWithReader
  rw [CT.bind_assoc]
  refine err_bind (string_start_err ?_ (by nofun))
  unfold Cursor.step
  dsimp only
  rw [h.withValue]
  cases v with
  | str t => exact absurd rfl (hv t)
  | _ => rfl

/-- `CT.attempt` of code which has just one result -/
theorem attempt_one {α β γ : Type} {m : X V α} {x : α} {p p' : Place} {f : Except SErr α → X V β} {ans : Ans γ} {P : γ → β → Place → Prop} (h : SMeets st T b m p (.ok x) (fun x a q => a = x ∧ q = p'))
    (hf : SMeets st T b (f (.ok x)) p' ans P) (he : b → ∀ e d', ∃ e', (f (.error e)).run d' = .ret (.error e', d') ∧ SimpleReaderSpec.kind e = SimpleReaderSpec.kind e') :
    SMeets st T b (CT.attempt m >>= f) p ans P := by
  show SMeets st T b _ p ((Answer.ok x : Ans α) >>= fun _ => ans) P
  refine Meets.attempt h (fun y a k' h hy => ?_) he
  cases hy
  obtain ⟨rfl, rfl⟩ := h
  exact hf

/-- the specification has one step less -/
theorem attempt' {α β γ τ : Type} {m : X V α} {p : Place} {ans : Ans β} {P : β → α → Place → Prop} {ans' : Ans τ} {g : Except SErr α → X V γ} {l : β → Ans τ} {Q : τ → γ → Place → Prop}
    (hm : SMeets st T b m p ans P) (he' : ans' = ans >>= l) (hg : ∀ x a k', P x a k' → ans = .ok x → SMeets st T b (g (.ok a)) k' (l x) Q)
    (he : b → ∀ y d', ∃ y', (g (.error y)).run d' = .ret (.error y', d') ∧ SimpleReaderSpec.kind y = SimpleReaderSpec.kind y') : SMeets st T b (CT.attempt m >>= g) p ans' Q := by
  rw [he']
  exact Meets.attempt hm hg he

theorem checkSkipName_meets {c : Bool} {last name : Text} {v : JVal} {rest : List (Text × JVal)} (hk : k.str = false) :
    SMeets st T b (checkSkipName c : X V Unit) (.cur (k.push (if c then .value name v rest else .names last ((name, v) :: rest)))) (.ok ()) (To (k.push (.value name v rest))) := by
  unfold checkSkipName
  cases c with
  | true => exact Meets.pure ⟨rfl, rfl⟩
  | false => exact unitCall_ok (by nofun) (skipName_object hk last name v rest)

mutual
theorem value_meets : (o : ValOp V) → (b → Passes o) → (b.strict → Stops o) → ∀ {k : Cur} {env : Env} {v : JVal}, Here st fuel k env v →
    SMeets st T b (value fuel o) (.cur k) (SimpleReaderSpec.value env v o) (To k.advance)
  | .null, _, hu, k, env, v, h => by
    rw [value, SimpleReaderSpec.value.eq_def]
    dsimp only
    have hs : Cursor.step st k .nextNull = Cursor.withValue st k _ := rfl
    cases v with
    | null => exact seq_ok (unitCall_ok (by nofun) (hs.trans (h.withValue _))) (Meets.pure ⟨rfl, rfl⟩)
    | bool x => exact wrong_unit h (by nofun) hs rfl
    | num x => exact wrong_unit h (by nofun) hs rfl
    | str x => exact wrong_unit h (by nofun) hs rfl
    | arr x => exact wrong_unit h (by nofun) hs rfl
    | obj x => exact wrong_unit h (by nofun) hs rfl
  | .bool, _, hu, k, env, v, h => by
    rw [value, SimpleReaderSpec.value.eq_def]
    dsimp only
    have hs : Cursor.step st k .nextBool = Cursor.withValue st k _ := rfl
    cases v with
    | bool x => exact seq_ok (boolCall_ok (by nofun) (hs.trans (h.withValue _))) (Meets.pure ⟨rfl, rfl⟩)
    | null => exact wrong_bool h (by nofun) hs rfl
    | num x => exact wrong_bool h (by nofun) hs rfl
    | str x => exact wrong_bool h (by nofun) hs rfl
    | arr x => exact wrong_bool h (by nofun) hs rfl
    | obj x => exact wrong_bool h (by nofun) hs rfl
  | .str f, _, hu, k, env, v, h => by
    rw [value, SimpleReaderSpec.value.eq_def]
    dsimp only
    have hs : Cursor.step st k .nextStr = Cursor.withValue st k _ := rfl
    cases v with
    | str t => exact seq_ok (textCall_ok (by nofun) (hs.trans (h.withValue _))) (got_meets (ofExcept_meets (f t)))
    | null => exact wrong_text h (by nofun) hs rfl
    | bool x => exact wrong_text h (by nofun) hs rfl
    | num x => exact wrong_text h (by nofun) hs rfl
    | arr x => exact wrong_text h (by nofun) hs rfl
    | obj x => exact wrong_text h (by nofun) hs rfl
  | .string, _, hu, k, env, v, h => by
    rw [value, SimpleReaderSpec.value.eq_def]
    dsimp only
    have hs : Cursor.step st k .nextString = Cursor.withValue st k _ := rfl
    cases v with
    | str t => exact seq_ok (textCall_ok (by nofun) (hs.trans (h.withValue _))) (Meets.pure ⟨rfl, rfl⟩)
    | null => exact wrong_text h (by nofun) hs rfl
    | bool x => exact wrong_text h (by nofun) hs rfl
    | num x => exact wrong_text h (by nofun) hs rfl
    | arr x => exact wrong_text h (by nofun) hs rfl
    | obj x => exact wrong_text h (by nofun) hs rfl
  | .stringReader f, hb, hu, k, env, v, h => by
    rw [value, SimpleReaderSpec.value.eq_def]
    dsimp only
    cases v with
    | str t => exact got_meets (stringReader_meets f (fun h => by have := hb h; rwa [Passes] at this) h)
    | null => exact string_wrong h nofun
    | bool x => exact string_wrong h nofun
    | num x => exact string_wrong h nofun
    | arr x => exact string_wrong h nofun
    | obj x => exact string_wrong h nofun
  | .number, _, hu, k, env, v, h => by
    rw [value, SimpleReaderSpec.value.eq_def]
    dsimp only
    exact number_meets h (.inl rfl)
  | .numberString, _, hu, k, env, v, h => by
    rw [value, SimpleReaderSpec.value.eq_def]
    dsimp only
    exact number_meets h (.inr rfl)
  | .deserialize d, hb, hu, k, env, v, h => by
    rw [value, SimpleReaderSpec.value.eq_def]
    dsimp only
    exact got_meets (deserialize_meets d (fun h => by have := hb h; rwa [Passes] at this) (fun h => by have := hu h; rw [Stops] at this; exact this.2) h)
  | .skip, _, hu, k, env, v, h => by
    rw [value, SimpleReaderSpec.value.eq_def]
    dsimp only
    exact seq_ok (unitCall_ok (by nofun) h.skip) (Meets.pure ⟨rfl, rfl⟩)
  | .array f, hb, hu, k, env, v, h => by
    rw [value, SimpleReaderSpec.value.eq_def]
    dsimp only
    have hs : Cursor.step st k .beginArray = Cursor.withValue st k _ := rfl
    cases v with
    | arr vs =>
      obtain ⟨h1, h2⟩ := h.array
      refine seq_ok (unitCall_ok (by nofun) h1) ?_
      refine (arr_meets f (fun h => by have := hb h; rwa [Passes] at this) (fun h => by have := hu h; rwa [Stops] at this) h2).bind fun x a p hp _ => ?_
      obtain ⟨x, rest⟩ := x
      obtain ⟨rfl, i, rfl⟩ := hp
      cases rest with
      | nil => exact seq_ok (unitCall_ok (by nofun) (endArray_step h.str i)) (Meets.pure ⟨rfl, rfl⟩)
      | cons v vs => exact err_bind (unitCall_err (by nofun) (endArray_more h.str i v vs) (by nofun))
    | null => exact wrong_unit h (by nofun) hs rfl
    | bool x => exact wrong_unit h (by nofun) hs rfl
    | num x => exact wrong_unit h (by nofun) hs rfl
    | str x => exact wrong_unit h (by nofun) hs rfl
    | obj x => exact wrong_unit h (by nofun) hs rfl
  | .arrayItems init f, hb, hu, k, env, v, h => by
    rw [value, SimpleReaderSpec.value.eq_def]
    dsimp only
    have hs : Cursor.step st k .beginArray = Cursor.withValue st k _ := rfl
    cases v with
    | arr vs =>
      obtain ⟨h1, h2⟩ := h.array
      refine seq_ok (unitCall_ok (by nofun) h1) ?_
      refine (itemsLoop_meets (fun x k v h => readValue_meets h (val_meets (f x) (fun h => by have := hb h; rw [Passes] at this; exact this x) (fun h => by have := hu h; rw [Stops] at this; exact this x) h)) vs fuel 0 init h2 h2.length).bind fun x a p hp _ => ?_
      obtain ⟨rfl, i, rfl⟩ := hp
      exact seq_ok (unitCall_ok (by nofun) (endArray_step h.str i)) (Meets.pure ⟨rfl, rfl⟩)
    | null => exact wrong_unit h (by nofun) hs rfl
    | bool x => exact wrong_unit h (by nofun) hs rfl
    | num x => exact wrong_unit h (by nofun) hs rfl
    | str x => exact wrong_unit h (by nofun) hs rfl
    | obj x => exact wrong_unit h (by nofun) hs rfl
  | .objectBorrowed init f, hb, hu, k, env, v, h => by
    rw [value, SimpleReaderSpec.value.eq_def]
    dsimp only
    have hs : Cursor.step st k .beginObject = Cursor.withValue st k _ := rfl
    cases v with
    | obj ms =>
      obtain ⟨h1, h2⟩ := h.object
      refine seq_ok (unitCall_ok (by nofun) h1) ?_
      refine (borrowedLoop_meets (fun x last name v rest h' => mem_meets (f x) (fun h => by have := hb h; rw [Passes] at this; exact this x) (fun h => by have := hu h; rw [Stops] at this; exact this x) h.str h' (consumedName := false))
        ms fuel _ init h2 (by simpa using h2.length)).bind fun x a p hp _ => ?_
      obtain ⟨rfl, i, rfl⟩ := hp
      exact seq_ok (unitCall_ok (by nofun) (endObject_step h.str i)) (Meets.pure ⟨rfl, rfl⟩)
    | null => exact wrong_unit h (by nofun) hs rfl
    | bool x => exact wrong_unit h (by nofun) hs rfl
    | num x => exact wrong_unit h (by nofun) hs rfl
    | str x => exact wrong_unit h (by nofun) hs rfl
    | arr x => exact wrong_unit h (by nofun) hs rfl
  | .objectOwned init f, hb, hu, k, env, v, h => by
    rw [value, SimpleReaderSpec.value.eq_def]
    dsimp only
    have hs : Cursor.step st k .beginObject = Cursor.withValue st k _ := rfl
    cases v with
    | obj ms =>
      obtain ⟨h1, h2⟩ := h.object
      refine seq_ok (unitCall_ok (by nofun) h1) ?_
      refine (ownedLoop_meets (g := fun x m => SimpleReaderSpec.single (env.inside 1) m.2 (f x m.1))
        (fun x name k v h => val_meets (f x name) (fun h => by have := hb h; rw [Passes] at this; exact this x name) (fun h => by have := hu h; rw [Stops] at this; exact this x name) h)
        ms fuel _ init h2 (by simpa using h2.length)).bind fun x a p hp _ => ?_
      obtain ⟨rfl, i, rfl⟩ := hp
      exact seq_ok (unitCall_ok (by nofun) (endObject_step h.str i)) (Meets.pure ⟨rfl, rfl⟩)
    | null => exact wrong_unit h (by nofun) hs rfl
    | bool x => exact wrong_unit h (by nofun) hs rfl
    | num x => exact wrong_unit h (by nofun) hs rfl
    | str x => exact wrong_unit h (by nofun) hs rfl
    | arr x => exact wrong_unit h (by nofun) hs rfl
  | .seeked path f, hb, hu, k, env, v, h => by
    rw [value, SimpleReaderSpec.value.eq_def]
    dsimp only
    cases hf : find path v with
    | error e => exact err_bind (unitCall_err (by nofun) (h.seek_err hf) (find_ne_other path hf))
    | ok w =>
      obtain ⟨c, h1, h2, h3⟩ := h.seek hf
      refine seq_ok (unitCall_ok (by nofun) h1) ?_
      refine (readValue_meets h2 (val_meets f (fun h => by have := hb h; rwa [Passes] at this) (fun h => by have := hu h; rwa [Stops] at this) h2)).bind fun x a p hp _ => ?_
      obtain ⟨rfl, rfl⟩ := hp
      exact seq_ok (unitCall_ok (by nofun) h3) (Meets.pure ⟨rfl, rfl⟩)
  | .seekedMulti path one init f, hb, hu, k, env, v, h => by
    rw [value, SimpleReaderSpec.value.eq_def]
    dsimp only
    refine Meets.bind' (seekedMulti_meets path one init h
      (fun x k w hw => readValue_meets hw (val_meets (f x) (fun h => by have := hb h; rw [Passes] at this; exact this x) (fun h => by have := hu h; rw [Stops] at this; exact this x) hw))) ⟨fun x => pure (.val x), ?_, fun x a p hp _ => ?_⟩
    · rw [answer_assoc]
      refine congrArg (fun g => each (fun x w => SimpleReaderSpec.single (env.inside path.length) w (f x)) init (visit path v).1 >>= g) (funext fun y => ?_)
      cases (visit path v).2 with
      | some e => rfl
      | none =>
        dsimp only
        split <;> rfl
    · obtain ⟨rfl, rfl⟩ := hp
      exact Meets.pure ⟨rfl, rfl⟩
theorem arr_meets : (f : ArrC V) → (b → PassesArr f) → (b.strict → StopsArr f) → ∀ {k : Cur} {env : Env} {vs : List JVal} {i : Nat}, Inside st fuel k env vs →
    SMeets st T b (arrC fuel f) (.cur (k.push (.array i vs))) (SimpleReaderSpec.arrClosure env vs f) (fun x a p => a = x.1 ∧ ∃ i', p = .cur (k.push (.array i' x.2)))
  | .ret r, _, hu, k, env, vs, i, h => by
    rw [arrC, SimpleReaderSpec.arrClosure]
    cases r with
    | ok x => exact Meets.pure ⟨rfl, i, rfl⟩
    | error e => exact Meets.fail rfl
  | .hasNext f, hb, hu, k, env, vs, i, h => by
    have hb' : b → (∀ x, PassesArr (f (.ok x))) ∧ ∀ e, ∃ e', f (.error e) = .ret (.error e') ∧ SimpleReaderSpec.kind e = SimpleReaderSpec.kind e' := fun h => by
      have := hb h
      rwa [PassesArr] at this
    rw [arrC, SimpleReaderSpec.arrClosure]
    refine Meets.attempt (l := fun x => SimpleReaderSpec.arrClosure env vs (f (.ok x))) (boolCall_ok (by nofun) (hasNext_array h.str i vs)) (fun x a p hp _ => ?_) fun h e d' => ?_
    · obtain ⟨rfl, rfl⟩ := hp
      exact arr_meets (f (.ok a)) (fun h => (hb' h).1 _) (fun h => by have := hu h; rw [StopsArr] at this; exact this.1 _) h
    · obtain ⟨e', h1, h2⟩ := (hb' h).2 e
      rw [h1, arrC]
      exact ⟨e', rfl, h2⟩
  | .peek f, hb, hu, k, env, vs, i, h => by
    have hb' : b → (∀ x, PassesArr (f (.ok x))) ∧ ∀ e, ∃ e', f (.error e) = .ret (.error e') ∧ SimpleReaderSpec.kind e = SimpleReaderSpec.kind e' := fun h => by
      have := hb h
      rwa [PassesArr] at this
    have herr : b → ∀ (e : SErr) d', ∃ e', (arrC fuel (f (.error e))).run d' = .ret (.error e', d') ∧ SimpleReaderSpec.kind e = SimpleReaderSpec.kind e' := fun h e d' => by
      obtain ⟨e', h1, h2⟩ := (hb' h).2 e
      rw [h1, arrC]
      exact ⟨e', rfl, h2⟩
    rw [arrC]
    cases vs with
    | nil =>
      rw [SimpleReaderSpec.arrClosure]
      exact Meets.attempt (ans := (.err _ : Ans Unit)) (P := fun _ _ _ => True) (l := fun _ => .misuse) (peek_err (op_end h.str i fun _ => ⟨_, rfl⟩) (by nofun)) (fun x a p hp he => nomatch he) herr
    | cons v vs =>
      rw [SimpleReaderSpec.arrClosure]
      refine Meets.attempt (l := fun x => SimpleReaderSpec.arrClosure env (v :: vs) (f (.ok x))) (peek_ok h.item.peek) (fun x a p hp _ => ?_) herr
      obtain ⟨rfl, rfl⟩ := hp
      exact arr_meets (f (.ok a)) (fun h => (hb' h).1 _) (fun h => by have := hu h; rw [StopsArr] at this; exact this.1 _) h
  | .op o f, hb, hu, k, env, vs, i, h => by
    have hb' : b → Passes o ∧ (∀ x, PassesArr (f (.ok x))) ∧ ∀ e, ∃ e', f (.error e) = .ret (.error e') ∧ SimpleReaderSpec.kind e = SimpleReaderSpec.kind e' := fun h => by
      have := hb h
      rwa [PassesArr] at this
    have herr : b → ∀ (e : SErr) d', ∃ e', (arrC fuel (f (.error e))).run d' = .ret (.error e', d') ∧ SimpleReaderSpec.kind e = SimpleReaderSpec.kind e' := fun h e d' => by
      obtain ⟨e', h1, h2⟩ := (hb' h).2.2 e
      rw [h1, arrC]
      exact ⟨e', rfl, h2⟩
    rw [arrC]
    cases vs with
    | nil =>
      rw [SimpleReaderSpec.arrClosure]
      obtain ⟨e, he⟩ := noItem_err o
      refine attempt' (l := fun _ => .misuse) (noItem_meets (γ := Unit) (P := fun _ _ _ => True) o (fun h => (hb' h).1) h.str) ?_ (fun x a p hp hx => ?_) herr
      · rw [he, he]
        rfl
      · rw [he] at hx
        cases hx
    | cons v vs =>
      rw [SimpleReaderSpec.arrClosure]
      refine (value_meets o (fun h => (hb' h).1) (fun h => by have := hu h; rw [StopsArr] at this; exact this.1) h.item).attempt (fun x a p hp _ => ?_) herr
      obtain ⟨rfl, rfl⟩ := hp
      exact arr_meets (f (.ok a)) (fun h => (hb' h).2.1 _) (fun h => by have := hu h; rw [StopsArr] at this; exact this.2.1 _) h.tail
theorem val_meets : (f : ValC V) → (b → PassesVal f) → (b.strict → StopsVal f) → ∀ {k : Cur} {env : Env} {v : JVal}, Here st fuel k env v →
    SMeets st T b (valC fuel f) (.cur k) (SimpleReaderSpec.single env v f) (Consumed k)
  | .ret r, _, hu, k, env, v, h => by
    rw [valC, SimpleReaderSpec.single]
    cases r with
    | ok x => exact Meets.pure ⟨rfl, rfl⟩
    | error e => exact Meets.fail rfl
  | .peek f, hb, hu, k, env, v, h => by
    have hb' : b → (∀ x, PassesVal (f (.ok x))) ∧ ∀ e, ∃ e', f (.error e) = .ret (.error e') ∧ SimpleReaderSpec.kind e = SimpleReaderSpec.kind e' := fun h => by
      have := hb h
      rwa [PassesVal] at this
    rw [valC, SimpleReaderSpec.single]
    refine Meets.attempt (l := fun x => SimpleReaderSpec.single env v (f (.ok x))) (peek_ok h.peek) (fun x a p hp _ => ?_) fun h e d' => ?_
    · obtain ⟨rfl, rfl⟩ := hp
      exact val_meets (f (.ok a)) (fun h => (hb' h).1 _) (fun h => by have := hu h; rw [StopsVal] at this; exact this.1 _) h
    · obtain ⟨e', h1, h2⟩ := (hb' h).2 e
      rw [h1, valC]
      exact ⟨e', rfl, h2⟩
  | .op o f, hb, hu, k, env, v, h => by
    have hb' : b → Passes o ∧ Pass fun e => f (.error e) := fun h => by
      have := hb h
      rwa [PassesVal] at this
    rw [valC, SimpleReaderSpec.single]
    refine (value_meets o (fun h => (hb' h).1) (fun h => by have := hu h; rw [StopsVal] at this; exact this.1) h).attempt (fun x a p hp _ => ?_) fun h e d' => ?_
    · obtain ⟨rfl, rfl⟩ := hp
      cases f (.ok a) with
      | ok x => exact Meets.pure ⟨rfl, rfl⟩
      | error e => exact Meets.fail rfl
    · obtain ⟨e', h1, h2⟩ := (hb' h).2 e
      exact ⟨e', pass_run h1 _ d', h2⟩
theorem mem_meets : (f : MemC V) → (b → PassesMem f) → (b.strict → StopsMem f) → ∀ {k : Cur} {env : Env} {last name : Text} {v : JVal} {rest : List (Text × JVal)} {consumedName : Bool}, k.str = false →
    Here st fuel (k.push (.value name v rest)) env v →
    SMeets st T b (memC fuel consumedName f) (.cur (k.push (if consumedName then .value name v rest else .names last ((name, v) :: rest)))) (SimpleReaderSpec.member env name v consumedName f)
      (MemConsumed k last name v rest)
  | .ret r, _, hu, k, env, last, name, v, rest, c, hk, h => by
    rw [memC, SimpleReaderSpec.member]
    cases r with
    | ok x => exact Meets.pure ⟨rfl, nofun, rfl⟩
    | error e => exact Meets.fail rfl
  | .readName f, hb, hu, k, env, last, name, v, rest, c, hk, h => by
    have hb' : b → (∀ x, PassesMem (f (.ok x))) ∧ ∀ e, ∃ e', f (.error e) = .ret (.error e') ∧ SimpleReaderSpec.kind e = SimpleReaderSpec.kind e' := fun h => by
      have := hb h
      rwa [PassesMem] at this
    rw [memC, SimpleReaderSpec.member]
    cases c with
    | true => exact Meets.misuse (p := .nameConsumed) fun _ => ⟨.inl rfl, fun _ => rfl⟩
    | false =>
      refine Meets.attempt (l := fun x => SimpleReaderSpec.member env name v true (f (.ok x))) (textCall_ok (by nofun) (nextName_object hk last name v rest)) (fun x a p hp _ => ?_) fun h e d' => ?_
      · obtain ⟨rfl, rfl⟩ := hp
        exact mem_meets (f (.ok a)) (fun h => (hb' h).1 _) (fun h => by have := hu h; rw [StopsMem] at this; exact this.1 _) hk h (consumedName := true)
      · obtain ⟨e', h1, h2⟩ := (hb' h).2 e
        rw [h1, memC]
        exact ⟨e', rfl, h2⟩
  | .peek f, hb, hu, k, env, last, name, v, rest, c, hk, h => by
    have hb' : b → (∀ x, PassesMem (f (.ok x))) ∧ ∀ e, ∃ e', f (.error e) = .ret (.error e') ∧ SimpleReaderSpec.kind e = SimpleReaderSpec.kind e' := fun h => by
      have := hb h
      rwa [PassesMem] at this
    rw [memC, SimpleReaderSpec.member]
    have hp : SMeets st T b (checkSkipName c >>= fun _ => peek : X V ValueType) (.cur (k.push (if c then .value name v rest else .names last ((name, v) :: rest)))) (.ok (typeOf v))
        (To (k.push (.value name v rest))) := seq_ok (checkSkipName_meets hk) (peek_ok h.peek)
    refine Meets.attempt (l := fun x => SimpleReaderSpec.member env name v true (f (.ok x))) hp (fun x a p hp _ => ?_) fun h e d' => ?_
    · obtain ⟨rfl, rfl⟩ := hp
      exact mem_meets (f (.ok a)) (fun h => (hb' h).1 _) (fun h => by have := hu h; rw [StopsMem] at this; exact this.1 _) hk h (consumedName := true)
    · obtain ⟨e', h1, h2⟩ := (hb' h).2 e
      rw [h1, memC]
      exact ⟨e', rfl, h2⟩
  | .op o f, hb, hu, k, env, last, name, v, rest, c, hk, h => by
    have hb' : b → Passes o ∧ Pass fun e => f (.error e) := fun h => by
      have := hb h
      rwa [PassesMem] at this
    rw [memC, SimpleReaderSpec.member]
    refine attempt_one (checkSkipName_meets hk) ?_ fun h e d' => ?_
    · refine (value_meets o (fun h => (hb' h).1) (fun h => by have := hu h; rw [StopsMem] at this; exact this.1) h).attempt (fun x a p hp _ => ?_) fun h e d' => ?_
      · obtain ⟨rfl, rfl⟩ := hp
        cases f (.ok a) with
        | ok x => exact Meets.pure ⟨rfl, fun _ => rfl, rfl⟩
        | error e => exact Meets.fail rfl
      · obtain ⟨e', h1, h2⟩ := (hb' h).2 e
        exact ⟨e', pass_run h1 _ d', h2⟩
    · obtain ⟨e', h1, h2⟩ := (hb' h).2 e
      exact ⟨e', pass_run h1 _ d', h2⟩
end

end Verif.SimpleReader
