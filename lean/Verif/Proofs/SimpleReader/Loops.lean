import Verif.Proofs.SimpleReader.Place
/-! # The Simple reader API: the loops -/

namespace Verif.SimpleReader
open Reader Json Cursor
open Abs (St RepC)
open SimpleReaderSpec (SKind Ans Env each)

variable {V : Type} {st : Settings} {T : Tops} {b : Meets.Cond} {k : Cur} {fuel : Nat} {env : Env} {v : JVal}

/-! ## Number of iterations -/

mutual
/-- a number of iterations which is sufficient for all loops -/
def weight : JVal → Nat
  | .arr vs => weightItems vs + 2
  | .obj ms => weightMembers ms + 2
  | .str t => (enc t).length + 1
  | .null => 1
  | .bool _ => 1
  | .num _ => 1
def weightItems : List JVal → Nat
  | [] => 0
  | v :: vs => weight v + weightItems vs + 1
def weightMembers : List (Text × JVal) → Nat
  | [] => 0
  | (_, v) :: ms => weight v + weightMembers ms + 1
end

theorem weightMembers_map : ∀ ms : List (Text × JVal), weightMembers ms = weightItems (ms.map Prod.snd)
  | [] => by rw [weightMembers, List.map_nil, weightItems]
  | (n, v) :: ms => by rw [weightMembers, List.map_cons, weightItems, weightMembers_map ms]

theorem weightItems_mem {v : JVal} : ∀ {vs : List JVal}, v ∈ vs → weight v + 1 ≤ weightItems vs
  | u :: vs, h => by
    rw [weightItems]
    rcases List.mem_cons.1 h with rfl | h
    · omega
    · have := weightItems_mem h; omega

theorem weightItems_length : ∀ vs : List JVal, vs.length ≤ weightItems vs
  | [] => Nat.zero_le _
  | v :: vs => by rw [weightItems, List.length_cons]; have := weightItems_length vs; omega

/-! ## Places -/

/-- values at this nesting depth do not exceed the nesting limit -/
def Fits (st : Settings) (opened : Nat) (v : JVal) : Prop := ∀ n, st.maxNestingDepth = some n → opened + depth v ≤ n

/-- The value `v` is at the place `k` -/
structure Here (st : Settings) (fuel : Nat) (k : Cur) (env : Env) (v : JVal) : Prop where
  can : k.canValue st.allowMultipleTopLevel = true
  next : k.next = some v
  opened : env.opened = k.frames.length
  fits : Fits st env.opened v
  fuel : weight v ≤ fuel
  st : env.st = st

/-- Inside of an array or object at the place `k`, which contains the values `vs` -/
structure Inside (st : Settings) (fuel : Nat) (k : Cur) (env : Env) (vs : List JVal) : Prop where
  str : k.str = false
  opened : env.opened = k.frames.length + 1
  fits : ∀ v ∈ vs, Fits st env.opened v
  weight : ∀ v ∈ vs, weight v ≤ fuel
  length : vs.length ≤ fuel
  st : env.st = st

theorem canValue_str {multi : Bool} (h : k.canValue multi = true) : k.str = false := by
  unfold Cur.canValue at h
  cases hk : k.str with
  | false => rfl
  | true => rw [hk] at h; cases h

theorem Here.str (h : Here st fuel k env v) : k.str = false := canValue_str h.can

theorem Here.withValue (h : Here st fuel k env v) (f : JVal → Step) : Cursor.withValue st k f = f v := withValue_some h.can h.next

theorem tooDeep_none {d : Nat} (h : ∀ n, st.maxNestingDepth = some n → k.frames.length + d ≤ n) : k.tooDeep st.maxNestingDepth d = none := by
  unfold Cur.tooDeep
  cases hm : st.maxNestingDepth with
  | none => rfl
  | some n =>
    have := h n hm
    dsimp only
    rw [if_neg (by omega)]

theorem Here.skip (h : Here st fuel k env v) : Cursor.step st k .skipValue = .ok .unit k.advance := by
  unfold Cursor.step
  dsimp only
  rw [h.withValue, tooDeep_none fun n hn => by rw [← h.opened]; exact h.fits n hn]

theorem Here.peek (h : Here st fuel k env v) : Cursor.step st k .peek = .ok (.type (typeOf v)) k := by
  unfold Cursor.step
  dsimp only
  rw [h.withValue]

theorem Inside.sub {vs ws : List JVal} (h : Inside st fuel k env ws) (hs : ∀ v ∈ vs, v ∈ ws) (hl : vs.length ≤ ws.length) : Inside st fuel k env vs where
  str := h.str
  opened := h.opened
  st := h.st
  fits v hv := h.fits v (hs v hv)
  weight v hv := h.weight v (hs v hv)
  length := Nat.le_trans hl h.length

theorem Inside.tail {vs : List JVal} (h : Inside st fuel k env (v :: vs)) : Inside st fuel k env vs := h.sub (fun _ h => List.mem_cons_of_mem _ h) (by simp)

theorem Here.array {vs : List JVal} (h : Here st fuel k env (.arr vs)) : Cursor.step st k .beginArray = .ok .unit (k.push (.array 0 vs)) ∧ Inside st fuel k (env.inside 1) vs := by
  refine ⟨?_, h.str, congrArg (· + 1) h.opened, fun v hv n hn => ?_, fun v hv => ?_, ?_, h.st⟩
  · unfold Cursor.step
    dsimp only
    rw [h.withValue]
    dsimp only
    unfold beginStep
    rw [tooDeep_none fun n hn => ?_]
    have := h.fits n hn
    rw [depth] at this
    rw [← h.opened]
    omega
  · have := h.fits n hn
    rw [depth] at this
    have := depthItems_mem hv
    show env.opened + 1 + depth v ≤ n
    omega
  · have := h.fuel
    rw [SimpleReader.weight] at this
    have := weightItems_mem hv
    omega
  · have := h.fuel
    rw [SimpleReader.weight] at this
    have := weightItems_length vs
    omega

theorem Here.object {ms : List (Text × JVal)} (h : Here st fuel k env (.obj ms)) :
    Cursor.step st k .beginObject = .ok .unit (k.push (.names ['<', '?', '>'] ms)) ∧ Inside st fuel k (env.inside 1) (ms.map Prod.snd) := by
  refine ⟨?_, h.str, congrArg (· + 1) h.opened, fun v hv n hn => ?_, fun v hv => ?_, ?_, h.st⟩
  · unfold Cursor.step
    dsimp only
    rw [h.withValue]
    dsimp only
    unfold beginStep
    rw [tooDeep_none fun n hn => ?_]
    have := h.fits n hn
    rw [depth] at this
    rw [← h.opened]
    omega
  · have := h.fits n hn
    rw [depth, depthMembers_map] at this
    have := depthItems_mem hv
    show env.opened + 1 + depth v ≤ n
    omega
  · have := h.fuel
    rw [SimpleReader.weight, weightMembers_map] at this
    have := weightItems_mem hv
    omega
  · have := h.fuel
    rw [SimpleReader.weight, weightMembers_map] at this
    have := weightItems_length (ms.map Prod.snd)
    omega

theorem Inside.item {vs : List JVal} {i : Nat} (h : Inside st fuel k env (v :: vs)) : Here st fuel (k.push (.array i (v :: vs))) env v where
  can := by unfold Cur.canValue Cur.push; dsimp only; rw [h.str]; rfl
  next := rfl
  opened := h.opened
  st := h.st
  fits := h.fits v (List.mem_cons_self ..)
  fuel := h.weight v (List.mem_cons_self ..)

theorem Inside.member {vs : List JVal} {ms : List (Text × JVal)} {n : Text} (h : Inside st fuel k env (v :: vs)) : Here st fuel (k.push (.value n v ms)) env v where
  can := by unfold Cur.canValue Cur.push; dsimp only; rw [h.str]; rfl
  next := rfl
  opened := h.opened
  st := h.st
  fits := h.fits v (List.mem_cons_self ..)
  fuel := h.weight v (List.mem_cons_self ..)

section
variable {i : Nat} {vs : List JVal} {n : Text} {ms : List (Text × JVal)} (hk : k.str = false)
include hk

theorem hasNext_array (i : Nat) (vs : List JVal) : Cursor.step st (k.push (.array i vs)) .hasNext = .ok (.bool !vs.isEmpty) (k.push (.array i vs)) := De.hasNext_array hk i vs
theorem hasNext_object (n : Text) (ms : List (Text × JVal)) : Cursor.step st (k.push (.names n ms)) .hasNext = .ok (.bool !ms.isEmpty) (k.push (.names n ms)) := De.hasNext_object hk n ms
theorem nextName_object (n name : Text) (v : JVal) (ms : List (Text × JVal)) :
    Cursor.step st (k.push (.names n ((name, v) :: ms))) .nextName = .ok (.text name) (k.push (.value name v ms)) := De.nextName_object hk n name v ms

theorem nextNameOwned_object (n name : Text) (v : JVal) (ms : List (Text × JVal)) :
    Cursor.step st (k.push (.names n ((name, v) :: ms))) .nextNameOwned = .ok (.text name) (k.push (.value name v ms)) := De.nextName_object (st := st) hk n name v ms

theorem skipName_object (n name : Text) (v : JVal) (ms : List (Text × JVal)) :
    Cursor.step st (k.push (.names n ((name, v) :: ms))) .skipName = .ok .unit (k.push (.value name v ms)) := by
  unfold Cursor.step Cur.push
  dsimp only
  rw [if_neg (by rw [hk]; exact Bool.false_ne_true)]

theorem endArray_step (i : Nat) : Cursor.step st (k.push (.array i [])) .endArray = .ok .unit k.advance := by
  unfold Cursor.step Cur.push
  dsimp only
  rw [if_neg (by rw [hk]; exact Bool.false_ne_true)]
  rfl

theorem endObject_step (n : Text) : Cursor.step st (k.push (.names n [])) .endObject = .ok .unit k.advance := by
  unfold Cursor.step Cur.push
  dsimp only
  rw [if_neg (by rw [hk]; exact Bool.false_ne_true)]
  rfl

end

/-! ## Loops -/

/-- the result of a closure with a `SingleValueReader`, and where the reader is afterwards -/
def Consumed (k : Cur) (x : V) (a : V × Bool) (p : Place) : Prop := a.1 = x ∧ p = .cur (if a.2 then k.advance else k)

theorem readValue_meets {f : X V (V × Bool)} {ans : Ans V} (h : Here st fuel k env v) (hf : SMeets st T b f (.cur k) ans (Consumed k)) : SMeets st T b (readValue f) (.cur k) ans (To k.advance) := by
  unfold readValue
  refine hf.bind' ⟨.ok, by cases ans <;> rfl, fun x a p hp _ => ?_⟩
  obtain ⟨y, c⟩ := a
  obtain ⟨rfl, rfl⟩ := hp
  cases c with
  | true => exact Meets.pure ⟨rfl, rfl⟩
  | false => exact seq_ok (unitCall_ok (by nofun) h.skip) (Meets.pure ⟨rfl, rfl⟩)

theorem itemsLoop_meets {f : V → X V (V × Bool)} {g : V → JVal → Ans V} (hf : ∀ x k v, Here st fuel k env v → SMeets st T b (readValue (f x)) (.cur k) (g x v) (To k.advance)) :
    ∀ (vs : List JVal) (n i : Nat) (x : V), Inside st fuel k env vs → vs.length ≤ n →
      SMeets st T b (itemsLoop f n x) (.cur (k.push (.array i vs))) (each g x vs) (fun y a p => a = y ∧ ∃ i', p = .cur (k.push (.array i' [])))
  | [], n, i, x, h, _ => by
    rw [itemsLoop.eq_def, each]
    exact seq_ok (boolCall_ok (by nofun) (hasNext_array h.str i [])) (Meets.pure ⟨rfl, i, rfl⟩)
  | v :: vs, 0, i, x, h, hn => by simp at hn
  | v :: vs, n + 1, i, x, h, hn => by
    rw [itemsLoop.eq_def, each]
    refine seq_ok (boolCall_ok (by nofun) (hasNext_array h.str i (v :: vs))) ?_
    refine (hf x _ v h.item).bind fun y a p hp _ => ?_
    obtain ⟨rfl, rfl⟩ := hp
    exact itemsLoop_meets hf vs n (i + 1) a h.tail (by simpa using hn)

theorem membersLoop_meets {f : V → X V (V × Bool)} {g : V → JVal → Ans V} (hf : ∀ x k v, Here st fuel k env v → SMeets st T b (readValue (f x)) (.cur k) (g x v) (To k.advance)) :
    ∀ (ms : List (Text × JVal)) (n : Nat) (last : Text) (x : V), Inside st fuel k env (ms.map Prod.snd) → ms.length ≤ n →
      SMeets st T b (membersLoop f n x) (.cur (k.push (.names last ms))) (each g x (ms.map Prod.snd)) (fun y a p => a = y ∧ ∃ l, p = .cur (k.push (.names l [])))
  | [], n, l, x, h, _ => by
    rw [membersLoop.eq_def, List.map_nil, each]
    exact seq_ok (boolCall_ok (by nofun) (hasNext_object h.str l [])) (Meets.pure ⟨rfl, l, rfl⟩)
  | (name, v) :: ms, 0, l, x, h, hn => by simp at hn
  | (name, v) :: ms, n + 1, l, x, h, hn => by
    rw [membersLoop.eq_def, List.map_cons, each]
    refine seq_ok (boolCall_ok (by nofun) (hasNext_object h.str l ((name, v) :: ms))) ?_
    refine seq_ok (unitCall_ok (by nofun) (skipName_object h.str l name v ms)) ?_
    refine (hf x _ v (Inside.member h)).bind fun y a p hp _ => ?_
    obtain ⟨rfl, rfl⟩ := hp
    exact membersLoop_meets hf ms n name a (Inside.tail h) (by simpa using hn)

theorem ownedLoop_meets {f : V → Text → X V (V × Bool)} {g : V → Text × JVal → Ans V}
    (hf : ∀ x name k v, Here st fuel k env v → SMeets st T b (f x name) (.cur k) (g x (name, v)) (Consumed k)) :
    ∀ (ms : List (Text × JVal)) (n : Nat) (last : Text) (x : V), Inside st fuel k env (ms.map Prod.snd) → ms.length ≤ n →
      SMeets st T b (ownedLoop f n x) (.cur (k.push (.names last ms))) (each g x ms) (fun y a p => a = y ∧ ∃ l, p = .cur (k.push (.names l [])))
  | [], n, l, x, h, _ => by
    rw [ownedLoop.eq_def, each]
    exact seq_ok (boolCall_ok (by nofun) (hasNext_object h.str l [])) (Meets.pure ⟨rfl, l, rfl⟩)
  | (name, v) :: ms, 0, l, x, h, hn => by simp at hn
  | (name, v) :: ms, n + 1, l, x, h, hn => by
    rw [ownedLoop.eq_def, each]
    refine seq_ok (boolCall_ok (by nofun) (hasNext_object h.str l ((name, v) :: ms))) ?_
    refine seq_ok (textCall_ok (by nofun) (nextNameOwned_object h.str l name v ms)) ?_
    have hh := Inside.member (n := name) (ms := ms) h
    refine (hf x name _ v hh).bind fun y a p hp _ => ?_
    obtain ⟨z, c⟩ := a
    obtain ⟨rfl, rfl⟩ := hp
    have ih := ownedLoop_meets hf ms n name z (Inside.tail h) (by simpa using hn)
    cases c with
    | true => exact ih
    | false => exact seq_ok (unitCall_ok (by nofun) hh.skip) ih

/-- the result of a closure with a `MemberReader`, and where the reader is afterwards -/
def MemConsumed (k : Cur) (last name : Text) (v : JVal) (rest : List (Text × JVal)) (x : V) (a : V × Bool × Bool) (p : Place) : Prop :=
  a.1 = x ∧ (a.2.2 = true → a.2.1 = true) ∧
    p = .cur (k.push (if a.2.2 then .names name rest else if a.2.1 then .value name v rest else .names last ((name, v) :: rest)))

theorem borrowedLoop_meets {f : V → X V (V × Bool × Bool)} {g : V → Text × JVal → Ans V}
    (hf : ∀ x last name v rest, Here st fuel (k.push (.value name v rest)) env v →
      SMeets st T b (f x) (.cur (k.push (.names last ((name, v) :: rest)))) (g x (name, v)) (MemConsumed k last name v rest)) :
    ∀ (ms : List (Text × JVal)) (n : Nat) (last : Text) (x : V), Inside st fuel k env (ms.map Prod.snd) → ms.length ≤ n →
      SMeets st T b (borrowedLoop f n x) (.cur (k.push (.names last ms))) (each g x ms) (fun y a p => a = y ∧ ∃ l, p = .cur (k.push (.names l [])))
  | [], n, l, x, h, _ => by
    rw [borrowedLoop.eq_def, each]
    exact seq_ok (boolCall_ok (by nofun) (hasNext_object h.str l [])) (Meets.pure ⟨rfl, l, rfl⟩)
  | (name, v) :: ms, 0, l, x, h, hn => by simp at hn
  | (name, v) :: ms, n + 1, l, x, h, hn => by
    rw [borrowedLoop.eq_def, each]
    refine seq_ok (boolCall_ok (by nofun) (hasNext_object h.str l ((name, v) :: ms))) ?_
    have hh := Inside.member (n := name) (ms := ms) h
    refine (hf x l name v ms hh).bind fun y a p hp _ => ?_
    obtain ⟨z, c1, c2⟩ := a
    obtain ⟨rfl, h1, rfl⟩ := hp
    have ih := borrowedLoop_meets hf ms n name z (Inside.tail h) (by simpa using hn)
    have hs := unitCall_ok (V := V) (T := T) (b := b) (by nofun) hh.skip
    cases c2 with
    | true =>
      cases (show c1 = true from h1 rfl)
      exact ih
    | false =>
      cases c1 with
      | true => exact seq_ok hs ih
      | false => exact seq_ok (unitCall_ok (by nofun) (skipName_object h.str l name v ms)) (seq_ok hs ih)

/-! ## Strings -/

theorem strC_meets {t : Text} : (f : StrC V) → (b → SimpleReaderSpec.PassesStr f) → ∀ {n : Nat},
    SMeets st T b (strC f) (.str k t n) (SimpleReaderSpec.strClosure ((enc t).drop n) f) (fun x a p => a = x ∧ ∃ n', p = .str k t n')
  | .ret r, _, n => by
    rw [strC, SimpleReaderSpec.strClosure]
    exact (ofExcept_meets r).mono fun _ _ _ h => ⟨h.1, n, h.2⟩
  | .read len f, hb, n => by
    rw [strC, SimpleReaderSpec.strClosure]
    show SMeets st T b _ _ ((Answer.ok (((enc t).drop n).take len) : Ans Bytes) >>= fun _ => SimpleReaderSpec.strClosure (((enc t).drop n).drop len) (f (.ok (((enc t).drop n).take len)))) _
    refine (string_read len).attempt (fun x a p hp he => ?_) fun hb' e d' => ?_
    · cases he
      obtain ⟨rfl, rfl⟩ := hp
      rw [List.drop_drop]
      exact strC_meets (f (.ok _)) (fun h => by have := hb h; rw [SimpleReaderSpec.PassesStr] at this; exact this.1 _)
    · have := hb hb'
      rw [SimpleReaderSpec.PassesStr] at this
      obtain ⟨e', h1, h2⟩ := this.2 e
      refine ⟨e', ?_, h2⟩
      rw [h1]
      rfl

theorem skipString_meets {t : Text} : ∀ {fuel n : Nat}, (enc t).length ≤ n + fuel →
    SMeets st T b (skipString fuel : X V Unit) (.str k t n) (.ok ()) (fun _ _ p => ∃ n', (enc t).length < n' ∧ p = .str k t n') := by
  intro fuel
  induction fuel with
  | zero =>
    intro n h
    rw [skipString.eq_def]
    refine seq_ok (string_read 512) ?_
    rw [List.drop_eq_nil_of_le (by omega), List.take_nil]
    exact Meets.pure ⟨n + 512, by omega, rfl⟩
  | succ fuel ih =>
    intro n h
    rw [skipString.eq_def]
    refine seq_ok (string_read 512) ?_
    split
    · exact ih (by omega)
    · rename_i hl
      refine Meets.pure ⟨n + 512, ?_, rfl⟩
      simp at hl
      omega

theorem stringReader_meets {t : Text} (f : StrC V) (hb : b → SimpleReaderSpec.PassesStr f) (h : Here st fuel k env (.str t)) :
    SMeets st T b (readStringWithReader fuel f) (.cur k) (SimpleReaderSpec.strClosure (enc t) f) (To k.advance) := by
  unfold readStringWithReader
  refine seq_ok (string_start h.can h.next) ?_
  refine Meets.bind' (strC_meets (n := 0) f hb) ⟨.ok, ?_, fun x a p hp _ => ?_⟩
  · rw [List.drop_zero]; cases SimpleReaderSpec.strClosure (enc t) f <;> rfl
  obtain ⟨rfl, n, rfl⟩ := hp
  have hend : ∀ n', (enc t).length < n' → SMeets st T b (pure a : X V V) (.str k t n') (.ok a) (To k.advance) :=
    fun n' hn => SMeets.place (fun s hs => string_end hn hs) (Meets.pure ⟨rfl, rfl⟩)
  have key : SMeets st T b (do
      let bs ← stringRead Utf8.maxBytesPerChar
      if bs.length > 0 then skipString fuel else pure ()
      pure a : X V V) (.str k t n) (.ok a) (To k.advance) := by
    refine seq_ok (string_read Utf8.maxBytesPerChar) ?_
    have h4 : Utf8.maxBytesPerChar = 4 := rfl
    split
    · refine Meets.bind' (ans := (.ok () : Ans Unit)) (skipString_meets (by have := h.fuel; rw [weight] at this; omega)) ⟨fun _ => .ok a, rfl, fun _ _ p hp _ => ?_⟩
      obtain ⟨n', h1, rfl⟩ := hp
      exact hend n' h1
    · rename_i hl
      refine hend _ ?_
      simp at hl
      omega
  intro s hs
  exact key s hs

end Verif.SimpleReader
