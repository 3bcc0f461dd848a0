import Verif.Proofs.De.Client
/-! # The deserializer never has more open arrays and objects than permitted -/

namespace Verif.De
open Reader DeSpec

variable {α β V : Type} {n : Nat} {b : Prop}

/-- number of open arrays and objects after a call -/
def opened (o : Nat) (op : Op) (r : OpRes op) : Nat := match op, r with
  | .beginArray, .ok _ => o + 1
  | .beginObject, .ok _ => o + 1
  | .endArray, .ok _ => o - 1
  | .endObject, .ok _ => o - 1
  | _, _ => o

/-- the call is permitted when `o` arrays and objects are open -/
def Allowed (n o : Nat) (op : Op) : Prop := match op with
  | .beginArray => o < n
  | .beginObject => o < n
  | .endArray => 0 < o
  | .endObject => 0 < o
  | op => neutral op = true

/-- only permitted calls; `Q` holds for the result and the number of open arrays and objects -/
def Safe (n : Nat) : Nat → Calls Op OpRes α → (α → Nat → Prop) → Prop
  | o, .ret a, Q => Q a o
  | _, .panic _, _ => True
  | o, .call op k, Q => Allowed n o op ∧ ∀ r, Safe n (opened o op r) (k r) Q

theorem Safe.bind {Q : β → Nat → Prop} (t : Calls Op OpRes α) (f : α → Calls Op OpRes β) : ∀ {o : Nat}, Safe n o t (fun a o' => Safe n o' (f a) Q) → Safe n o (t.bind f) Q := by
  induction t with
  | ret a => intro o h; exact h
  | panic p => intro o h; trivial
  | call op k ih => intro o h; exact ⟨h.1, fun r => ih r (h.2 r)⟩

theorem Safe.mono {Q Q' : α → Nat → Prop} (hq : ∀ a o, Q a o → Q' a o) (t : Calls Op OpRes α) : ∀ {o : Nat}, Safe n o t Q → Safe n o t Q' := by
  induction t with
  | ret a => intro o h; exact hq a o h
  | panic p => intro o h; trivial
  | call op k ih => intro o h; exact ⟨h.1, fun r => ih r (h.2 r)⟩

/-- what the code does: `d` is the value of `depth` before it. If `b`, then `depth` and the open arrays and objects are the same after success. -/
def Post (n : Nat) (b : Prop) (d o : Nat) (x : Except DErr α × Nat) (o' : Nat) : Prop :=
  o ≤ o' ∧ o' ≤ x.2 ∧ d ≤ x.2 ∧ x.2 ≤ n ∧ (b → ∀ a, x.1 = .ok a → x.2 = d ∧ o' = o)

def SafeAt (n : Nat) (b : Prop) (m : D α) : Prop := ∀ d o, o ≤ d → d ≤ n → Safe n o (m.run d) (Post n b d o)

theorem safe_pure (a : α) : SafeAt n b (pure a) := fun _ _ h1 h2 => ⟨Nat.le_refl _, h1, Nat.le_refl _, h2, fun _ _ _ => ⟨rfl, rfl⟩⟩
theorem safe_fail (e : DErr) : SafeAt n b (CT.fail e : D α) := fun _ _ h1 h2 => ⟨Nat.le_refl _, h1, Nat.le_refl _, h2, fun _ _ h => nomatch h⟩
theorem safe_panic (p : CPanic) : SafeAt n b (CT.panic p : D α) := fun _ _ _ _ => trivial
theorem safe_ofExcept (r : Except DErr α) : SafeAt n b (CT.ofExcept r) := by
  cases r with
  | ok a => exact safe_pure a
  | error e => exact safe_fail e

theorem SafeAt.bind {m : D α} {f : α → D β} (hm : SafeAt n b m) (hf : ∀ a, SafeAt n b (f a)) : SafeAt n b (m >>= f) := by
  intro d o h1 h2
  rw [CT.run_bind]
  refine Safe.bind _ _ (Safe.mono ?_ _ (hm d o h1 h2))
  rintro ⟨r, d'⟩ o' ⟨p1, p2, p3, p4, p5⟩
  cases r with
  | error e => exact ⟨p1, p2, p3, p4, fun _ _ h => nomatch h⟩
  | ok a =>
    refine Safe.mono ?_ _ (hf a d' o' p2 p4)
    rintro ⟨r, d''⟩ o'' ⟨q1, q2, q3, q4, q5⟩
    refine ⟨Nat.le_trans p1 q1, q2, Nat.le_trans p3 q3, q4, fun hb x hx => ?_⟩
    obtain ⟨e1, e2⟩ := p5 hb a rfl
    obtain ⟨e3, e4⟩ := q5 hb x hx
    exact ⟨e3.trans e1, e4.trans e2⟩

/-- code which only fails, without changing anything -/
abbrev OnlyFails (m : D α) : Prop := ∀ d, ∃ e, m.run d = .ret (.error e, d)

theorem SafeAt.attempt {m : D α} {f : Except DErr α → D β} (hm : SafeAt n b m) (hf : ∀ r, SafeAt n b (f r)) (he : b → ∀ e, OnlyFails (f (.error e))) :
    SafeAt n b (CT.attempt m >>= f) := by
  intro d o h1 h2
  rw [CT.run_bind]
  unfold CT.attempt
  dsimp only
  rw [Calls.bind_assoc]
  refine Safe.bind _ _ (Safe.mono ?_ _ (hm d o h1 h2))
  rintro ⟨r, d'⟩ o' ⟨p1, p2, p3, p4, p5⟩
  show Safe n o' ((f r).run d') _
  refine Safe.mono ?_ _ (show Safe n o' ((f r).run d') (fun x o'' => Post n b d' o' x o'' ∧ (b → (∃ e, r = .error e) → ∃ e, x.1 = .error e)) from ?_)
  · rintro ⟨s, d''⟩ o'' ⟨⟨q1, q2, q3, q4, q5⟩, q6⟩
    refine ⟨Nat.le_trans p1 q1, q2, Nat.le_trans p3 q3, q4, fun hb x hx => ?_⟩
    cases r with
    | error e =>
      obtain ⟨e', h⟩ := q6 hb ⟨e, rfl⟩
      cases hx.symm.trans h
    | ok a =>
      obtain ⟨e1, e2⟩ := p5 hb a rfl
      obtain ⟨e3, e4⟩ := q5 hb x hx
      exact ⟨e3.trans e1, e4.trans e2⟩
  · cases r with
    | ok a =>
      refine Safe.mono ?_ _ (hf (.ok a) d' o' p2 p4)
      intro x o'' h
      exact ⟨h, fun _ h => nomatch h⟩
    | error e =>
      by_cases hb : b
      · obtain ⟨e', h⟩ := he hb e d'
        rw [h]
        exact ⟨⟨Nat.le_refl _, p2, Nat.le_refl _, p4, fun _ _ h => nomatch h⟩, fun _ _ => ⟨e', rfl⟩⟩
      · refine Safe.mono ?_ _ (hf (.error e) d' o' p2 p4)
        intro x o'' h
        exact ⟨h, fun hb' => absurd hb' hb⟩

theorem onReader_run' (op : Op) (d : Nat) : (onReader op).run d = .call op fun r => match r with
    | .ok o => .ret (.ok o, d)
    | .error e => .ret (.error (.reader e), d) := by
  show Calls.call op _ = Calls.call op _
  congr 1
  funext r
  cases r <;> rfl

theorem safe_onReader {op : Op} (h : neutral op = true) : SafeAt n b (onReader op) := by
  intro d o h1 h2
  rw [onReader_run']
  have hop : ∀ r : OpRes op, opened o op r = o := by
    intro r
    cases op <;> first | rfl | cases h
  refine ⟨?_, fun r => ?_⟩
  · cases op <;> first | exact h | cases h
  · rw [hop r]
    cases r with
    | ok a => exact safe_pure a d o h1 h2
    | error e => exact safe_fail _ d o h1 h2

theorem safe_wrongOut : SafeAt n b (wrongOut : D α) := safe_fail _
theorem safe_unitCall {op : Op} (h : neutral op = true) : SafeAt n b (unitCall op) := (safe_onReader h).bind fun _ => safe_pure _
theorem safe_boolCall {op : Op} (h : neutral op = true) : SafeAt n b (boolCall op) := (safe_onReader h).bind fun o => by cases o <;> first | exact safe_pure _ | exact safe_wrongOut
theorem safe_textCall {op : Op} (h : neutral op = true) : SafeAt n b (textCall op) := (safe_onReader h).bind fun o => by cases o <;> first | exact safe_pure _ | exact safe_wrongOut
theorem safe_peek : SafeAt n b peek := (safe_onReader rfl).bind fun o => by cases o <;> first | exact safe_pure _ | exact safe_wrongOut

/-- the end of an array or object, or an error -/
inductive Ends (close : Op) : D β → Prop
  | fail (e : DErr) : Ends close (CT.fail e)
  | panic (p : CPanic) : Ends close (CT.panic p)
  | close (x : β) : Ends close (unitCall close >>= fun _ => pure x)

theorem unitCall_run (op : Op) (d : Nat) : (unitCall op).run d = .call op fun r => match r with
    | .ok _ => .ret (.ok (), d)
    | .error e => .ret (.error (.reader e), d) := by
  show ((onReader op) >>= _ : D Unit).run d = _
  rw [CT.run_bind, onReader_run']
  show Calls.call op _ = _
  congr 1
  funext r
  cases r <;> rfl

theorem safe_container {begin close : Op} (hop : (begin = .beginArray ∧ close = .endArray) ∨ (begin = .beginObject ∧ close = .endObject)) {inner : D α} {g : α → D β}
    (hi : SafeAt n b inner) (hg : ∀ x, Ends close (g x)) : SafeAt n b (checkNesting n (unitCall begin >>= fun _ => inner >>= g)) := by
  intro d o h1 h2
  show Safe n o (((if d ≥ n then CT.fail (.maxNestingDepthExceeded n) else _) : D β).run d) _
  by_cases hd : d ≥ n
  · rw [if_pos hd]
    exact safe_fail _ d o h1 h2
  rw [if_neg hd, CT.run_bind]
  show Safe n o ((((unitCall begin >>= fun _ => inner >>= g) >>= _ : D β)).run (d + 1)) _
  rw [CT.run_bind, CT.run_bind, unitCall_run, Calls.bind_assoc]
  have hb : Allowed n o begin := by rcases hop with ⟨rfl, -⟩ | ⟨rfl, -⟩ <;> exact Nat.lt_of_le_of_lt h1 (by omega)
  refine ⟨hb, fun r => ?_⟩
  cases r with
  | error e =>
    have : opened o begin (.error e) = o := by rcases hop with ⟨rfl, -⟩ | ⟨rfl, -⟩ <;> rfl
    rw [this]
    exact ⟨Nat.le_refl _, Nat.le_succ_of_le h1, Nat.le_succ _, by omega, fun _ _ h => nomatch h⟩
  | ok a =>
    have : opened o begin (.ok a) = o + 1 := by rcases hop with ⟨rfl, -⟩ | ⟨rfl, -⟩ <;> rfl
    rw [this]
    show Safe n (o + 1) (Calls.bind ((inner >>= g : D β).run (d + 1)) _) _
    rw [CT.run_bind, Calls.bind_assoc]
    refine Safe.bind _ _ (Safe.mono ?_ _ (hi (d + 1) (o + 1) (by omega) (by omega)))
    rintro ⟨r, d'⟩ o' ⟨p1, p2, p3, p4, p5⟩
    cases r with
    | error e => exact ⟨by omega, p2, by omega, p4, fun _ _ h => nomatch h⟩
    | ok x =>
      show Safe n o' (Calls.bind ((g x).run d') _) _
      have hgx := hg x
      generalize g x = y at hgx
      cases hgx with
      | fail e => exact ⟨by omega, p2, by omega, p4, fun _ _ h => nomatch h⟩
      | panic p => trivial
      | close y =>
        rw [CT.run_bind, unitCall_run]
        have hb : Allowed n o' close := by rcases hop with ⟨-, rfl⟩ | ⟨-, rfl⟩ <;> exact Nat.lt_of_lt_of_le (Nat.succ_pos o) p1
        refine ⟨hb, fun r => ?_⟩
        cases r with
        | error e =>
          have : opened o' close (.error e) = o' := by rcases hop with ⟨-, rfl⟩ | ⟨-, rfl⟩ <;> rfl
          rw [this]
          exact ⟨by omega, p2, by omega, p4, fun _ _ h => nomatch h⟩
        | ok a =>
          have : opened o' close (.ok a) = o' - 1 := by rcases hop with ⟨-, rfl⟩ | ⟨-, rfl⟩ <;> rfl
          rw [this]
          dsimp only at p1 p2 p3 p4 p5
          refine ⟨by omega, by show o' - 1 ≤ d' - 1; omega, by show d ≤ d' - 1; omega, by show d' - 1 ≤ n; omega, fun hb y _ => ?_⟩
          have := p5 hb x rfl
          exact ⟨by show d' - 1 = d; omega, by omega⟩

/-! ## The visitor and the methods -/

structure VisSafe (n : Nat) (b : Prop) (v : Visitor V) : Prop where
  some : SafeAt n b v.some
  newtype : SafeAt n b v.newtype
  seq : ∀ e l, SafeAt n b (v.seq e l)
  map : ∀ e, SafeAt n b (v.map e)
  enum : SafeAt n b v.enum
  unitEnum : SafeAt n b v.unitEnum

variable {v : Visitor V}

theorem safe_seq (hv : VisSafe n b v) (e : Option Nat) : SafeAt n b (deserializeSeqWithLength n v e) := by
  unfold deserializeSeqWithLength
  refine safe_container (.inl ⟨rfl, rfl⟩) (hv.seq e 0) fun x => ?_
  cases e with
  | none => exact .close _
  | some k =>
    dsimp only
    split
    · exact .fail _
    · exact .close _

theorem safe_map (hv : VisSafe n b v) : SafeAt n b (deserializeMap n v) := by
  unfold deserializeMap
  refine safe_container (.inr ⟨rfl, rfl⟩) (hv.map false) fun x => ?_
  dsimp only
  split
  · exact .panic _
  · exact .close _

theorem safe_enum (hv : VisSafe n b v) : SafeAt n b (deserializeEnum n v) := by
  unfold deserializeEnum
  refine safe_peek.bind fun t => ?_
  cases t with
  | object =>
    refine safe_container (.inr ⟨rfl, rfl⟩) hv.enum fun x => ?_
    dsimp only
    split
    · exact .panic _
    · exact .close _
  | string =>
    refine hv.unitEnum.bind fun x => ?_
    dsimp only
    split
    · exact safe_panic _
    · exact safe_pure _
  | _ => exact safe_fail _

theorem safe_number (t : Text) : SafeAt n b (visitNumber v t) := by
  unfold visitNumber
  split
  · exact safe_ofExcept _
  split
  · split
    · exact safe_ofExcept _
    · split
      · exact safe_ofExcept _
      · exact safe_fail _
  · split
    · exact safe_ofExcept _
    · split
      · exact safe_ofExcept _
      · exact safe_fail _

theorem safe_text {op : Op} (h : neutral op = true) (p : Text → Prim) : SafeAt n b (textCall op >>= fun t => CT.ofExcept (v.prim (p t))) := (safe_textCall h).bind fun _ => safe_ofExcept _

theorem safe_method (hv : VisSafe n b v) (m : Method) : SafeAt n b (method n m v) := by
  cases m with
  | any =>
    refine safe_peek.bind fun t => ?_
    cases t with
    | array => exact safe_seq hv none
    | object => exact safe_map hv
    | string => exact safe_text rfl _
    | boolean => exact (safe_boolCall rfl).bind fun _ => safe_ofExcept _
    | null => exact (safe_unitCall rfl).bind fun _ => safe_ofExcept _
    | number => exact (safe_textCall rfl).bind fun t => safe_number t
  | bool => exact (safe_boolCall rfl).bind fun _ => safe_ofExcept _
  | int ty =>
    refine SafeAt.bind ((safe_textCall rfl).bind fun t => ?_) fun _ => safe_ofExcept _
    split
    · exact safe_pure _
    · exact safe_fail _
  | f32 => exact safe_text rfl _
  | f64 => exact safe_text rfl _
  | char => exact safe_text rfl _
  | str => exact safe_text rfl _
  | string => exact safe_text rfl _
  | bytes =>
    refine safe_peek.bind fun t => ?_
    cases t with
    | array => exact safe_seq hv none
    | string => exact safe_text rfl fun t => .bytes (enc t)
    | _ => exact safe_fail _
  | byteBuf =>
    refine safe_peek.bind fun t => ?_
    cases t with
    | array => exact safe_seq hv none
    | string => exact safe_text rfl fun t => .byteBuf (enc t)
    | _ => exact safe_fail _
  | option =>
    refine safe_peek.bind fun t => ?_
    cases t with
    | null => exact (safe_unitCall rfl).bind fun _ => safe_ofExcept _
    | _ => exact hv.some
  | unit => exact (safe_unitCall rfl).bind fun _ => safe_ofExcept _
  | unitStruct => exact (safe_unitCall rfl).bind fun _ => safe_ofExcept _
  | newtypeStruct => exact hv.newtype
  | seq => exact safe_seq hv none
  | tuple k => exact safe_seq hv (some k)
  | tupleStruct k => exact safe_seq hv (some k)
  | map => exact safe_map hv
  | struct =>
    refine safe_peek.bind fun t => ?_
    cases t with
    | array => exact safe_seq hv none
    | object => exact safe_map hv
    | _ => exact safe_fail _
  | enum => exact safe_enum hv
  | identifier => exact safe_text rfl _
  | ignoredAny => exact (safe_unitCall rfl).bind fun _ => safe_ofExcept _

/-! ## Implementations of `Deserialize` -/

abbrev Any : DErr → DErr → Prop := fun _ _ => True

theorem safe_finish {m : D α} {f : Except DErr α → Except DErr V} (hm : SafeAt n b m) (hf : b → ∀ e, ∃ e', f (.error e) = .error e' ∧ Any e e') :
    SafeAt n b (CT.attempt m >>= fun r => CT.ofExcept (f r)) :=
  hm.attempt (fun _ => safe_ofExcept _) fun hb e d => (hf hb e).imp fun _ h => ofExcept_run h.1 d

theorem safe_finish' {m : D α} {f : Except DErr α → Except DErr V} {x : Bool} (hm : SafeAt n b m) (hf : b → ∀ e, ∃ e', f (.error e) = .error e' ∧ Any e e') :
    SafeAt n b (CT.attempt m >>= fun r => CT.ofExcept (f r) >>= fun v => pure (v, x)) :=
  hm.attempt (fun _ => (safe_ofExcept _).bind fun _ => safe_pure _) fun hb e d => (hf hb e).imp fun _ h => ofExcept_bind_run h.1 _ d

mutual
theorem safe_deserialize : (c : De V) → (b → Aborts Any c) → SafeAt n b (deserialize n c)
  | .ret r, _ => by rw [deserialize]; exact safe_ofExcept r
  | .call m vis f, hb => by
    rw [deserialize]
    refine safe_finish (safe_method (safe_visitor vis fun h => ?_) m) fun h => ?_
    · have := hb h; rw [Aborts] at this; exact this.1
    · have := hb h; rw [Aborts] at this; exact this.2
theorem safe_visitor : (vis : Vis V) → (b → AbortsVis Any vis) → VisSafe n b (visitor n vis)
  | .mk prim opt newtype seq map enum, hb => by
    rw [visitor]
    have h : b → Aborts Any opt ∧ Aborts Any newtype ∧ AbortsSeq Any seq ∧ AbortsMap Any map ∧ AbortsEnum Any enum := fun h => by
      have := hb h
      rwa [AbortsVis] at this
    exact
      { some := safe_deserialize opt fun hb => (h hb).1
        newtype := safe_deserialize newtype fun hb => (h hb).2.1
        seq := fun _ _ => safe_visitSeq seq (fun hb => (h hb).2.2.1) _ _
        map := fun _ => safe_visitMap map (fun hb => (h hb).2.2.2.1) _
        enum := safe_visitEnum enum fun hb => (h hb).2.2.2.2
        unitEnum := safe_visitUnitEnum enum fun hb => (h hb).2.2.2.2 }
theorem safe_visitSeq : (c : SeqC V) → (b → AbortsSeq Any c) → ∀ (expected : Option Nat) (len : Nat), SafeAt n b (visitSeq n expected len c)
  | .ret r, _, _, _ => by rw [visitSeq]; exact (safe_ofExcept r).bind fun _ => safe_pure _
  | .next seed f, hb, expected, len => by
    have hb' : b → Aborts Any seed ∧ (∀ x, AbortsSeq Any (f (.ok x))) ∧ ∀ e, ∃ e', f (.error e) = .ret (.error e') ∧ Any e e' := fun h => by
      have := hb h
      rwa [AbortsSeq] at this
    have hr : ∀ r, b → AbortsSeq Any (f r) := fun r h => by
      cases r with
      | ok x => exact (hb' h).2.1 x
      | error e =>
        obtain ⟨e', h1, _⟩ := (hb' h).2.2 e
        rw [h1, AbortsSeq]
        trivial
    have herr : b → ∀ e len, OnlyFails (visitSeq n expected len (f (.error e))) := fun h e len d => by
      obtain ⟨e', h1, _⟩ := (hb' h).2.2 e
      rw [h1, visitSeq]
      exact ⟨e', rfl⟩
    rw [visitSeq]
    unfold nextElementSeed
    rw [CT.bind_assoc]
    refine (safe_boolCall rfl).attempt (fun r => ?_) fun h e => herr h e len
    match r with
    | .error e => exact safe_visitSeq (f (.error e)) (hr _) expected len
    | .ok false => exact safe_visitSeq (f (.ok none)) (hr _) expected len
    | .ok true =>
      have hs := safe_deserialize seed fun h => (hb' h).1
      have hnext : ∀ len', SafeAt n b (CT.attempt (deserialize n seed) >>= fun r => visitSeq n expected len' (f (r.map some))) := fun len' =>
        hs.attempt (fun r => safe_visitSeq (f (r.map some)) (hr _) expected len') fun h e => herr h e len'
      cases expected with
      | none =>
        dsimp only
        rw [CT.bind_assoc]
        exact hnext len
      | some k =>
        dsimp only
        by_cases hk : k ≤ len
        · rw [if_pos hk]
          exact safe_visitSeq (f (.error _)) (hr _) _ len
        · rw [if_neg hk, CT.bind_assoc]
          exact hnext (len + 1)
theorem safe_visitMap : (c : MapC V) → (b → AbortsMap Any c) → ∀ (expects : Bool), SafeAt n b (visitMap n expects c)
  | .ret r, _, _ => by rw [visitMap]; exact (safe_ofExcept r).bind fun _ => safe_pure _
  | .key seed f, hb, expects => by
    have hb' : b → Aborts Any seed ∧ (∀ x, AbortsMap Any (f (.ok x))) ∧ ∀ e, ∃ e', f (.error e) = .ret (.error e') ∧ Any e e' := fun h => by
      have := hb h
      rwa [AbortsMap] at this
    have hr : ∀ r, b → AbortsMap Any (f r) := fun r h => by
      cases r with
      | ok x => exact (hb' h).2.1 x
      | error e =>
        obtain ⟨e', h1, _⟩ := (hb' h).2.2 e
        rw [h1, AbortsMap]
        trivial
    have herr : b → ∀ e, OnlyFails (visitMap n false (f (.error e))) := fun h e d => by
      obtain ⟨e', h1, _⟩ := (hb' h).2.2 e
      rw [h1, visitMap]
      exact ⟨e', rfl⟩
    rw [visitMap, nextKeySeed]
    by_cases he : expects = true
    · rw [if_pos he]
      exact SafeAt.bind (safe_panic _) fun _ => safe_visitMap (f _) (hr _) _
    rw [if_neg he, CT.bind_assoc]
    refine (safe_boolCall rfl).attempt (fun r => ?_) fun h e => herr h e
    match r with
    | .error e => exact safe_visitMap (f (.error e)) (hr _) false
    | .ok false => exact safe_visitMap (f (.ok none)) (hr _) false
    | .ok true =>
      dsimp only
      rw [CT.bind_assoc]
      refine (safe_textCall rfl).attempt (fun r => ?_) fun h e => herr h e
      match r with
      | .error e => exact safe_visitMap (f (.error e)) (hr _) false
      | .ok name =>
        dsimp only
        cases keyDe name seed with
        | error e => exact safe_visitMap (f (.error e)) (hr _) false
        | ok key => exact safe_visitMap (f (.ok (some key))) (hr _) true
  | .value seed f, hb, expects => by
    have hb' : b → Aborts Any seed ∧ (∀ x, AbortsMap Any (f (.ok x))) ∧ ∀ e, ∃ e', f (.error e) = .ret (.error e') ∧ Any e e' := fun h => by
      have := hb h
      rwa [AbortsMap] at this
    have hr : ∀ r, b → AbortsMap Any (f r) := fun r h => by
      cases r with
      | ok x => exact (hb' h).2.1 x
      | error e =>
        obtain ⟨e', h1, _⟩ := (hb' h).2.2 e
        rw [h1, AbortsMap]
        trivial
    rw [visitMap, nextValueSeed]
    by_cases he : (!expects) = true
    · rw [if_pos he]
      exact SafeAt.bind (safe_panic _) fun _ => safe_visitMap (f _) (hr _) _
    rw [if_neg he]
    refine (safe_deserialize seed fun h => (hb' h).1).attempt (fun r => safe_visitMap (f r) (hr r) false) fun h e d => ?_
    obtain ⟨e', h1, _⟩ := (hb' h).2.2 e
    rw [h1, visitMap]
    exact ⟨e', rfl⟩
theorem safe_visitEnum : (c : EnumC V) → (b → AbortsEnum Any c) → SafeAt n b (visitEnum n c)
  | .ret r, _ => by rw [visitEnum]; exact (safe_ofExcept r).bind fun _ => safe_pure _
  | .variant seed onError f, hb => by
    have hb' : b → Aborts Any seed ∧ (∀ x, AbortsVar Any (f x)) ∧ ∀ e, ∃ e', onError e = .error e' ∧ Any e e' := fun h => by
      have := hb h
      rwa [AbortsEnum] at this
    rw [visitEnum]
    refine (safe_textCall rfl).attempt (fun r => ?_) fun h e d => ?_
    · match r with
      | .error e => exact (safe_ofExcept _).bind fun _ => safe_pure _
      | .ok name =>
        dsimp only
        cases strDe name seed with
        | error e => exact (safe_ofExcept _).bind fun _ => safe_pure _
        | ok y => exact safe_visitVariant (f y) fun h => (hb' h).2.1 y
    · obtain ⟨e', h1, _⟩ := (hb' h).2.2 e
      exact ⟨e', ofExcept_bind_run h1 _ d⟩
theorem safe_visitVariant : (c : VarC V) → (b → AbortsVar Any c) → SafeAt n b (visitVariant n c)
  | .ret r, _ => by rw [visitVariant]; exact (safe_ofExcept r).bind fun _ => safe_pure _
  | .unit f, hb => by
    rw [visitVariant]
    exact safe_finish' (safe_unitCall rfl) fun h => by have := hb h; rwa [AbortsVar] at this
  | .newtype seed f, hb => by
    rw [visitVariant]
    have hb' : b → Aborts Any seed ∧ ∀ e, ∃ e', f (.error e) = .error e' ∧ Any e e' := fun h => by have := hb h; rwa [AbortsVar] at this
    exact safe_finish' (safe_deserialize seed fun h => (hb' h).1) fun h => (hb' h).2
  | .tuple k vis f, hb => by
    rw [visitVariant]
    have hb' : b → AbortsVis Any vis ∧ ∀ e, ∃ e', f (.error e) = .error e' ∧ Any e e' := fun h => by have := hb h; rwa [AbortsVar] at this
    exact safe_finish' (safe_method (safe_visitor vis fun h => (hb' h).1) (.tuple k)) fun h => (hb' h).2
  | .struct vis f, hb => by
    rw [visitVariant]
    have hb' : b → AbortsVis Any vis ∧ ∀ e, ∃ e', f (.error e) = .error e' ∧ Any e e' := fun h => by have := hb h; rwa [AbortsVar] at this
    exact safe_finish' (safe_method (safe_visitor vis fun h => (hb' h).1) .struct) fun h => (hb' h).2
theorem safe_visitUnitEnum : (c : EnumC V) → (b → AbortsEnum Any c) → SafeAt n b (visitUnitEnum n c)
  | .ret r, _ => by rw [visitUnitEnum]; exact (safe_ofExcept r).bind fun _ => safe_pure _
  | .variant seed onError f, hb => by
    have hb' : b → Aborts Any seed ∧ (∀ x, AbortsVar Any (f x)) ∧ ∀ e, ∃ e', onError e = .error e' ∧ Any e e' := fun h => by
      have := hb h
      rwa [AbortsEnum] at this
    rw [visitUnitEnum]
    refine (safe_deserialize seed fun h => (hb' h).1).attempt (fun r => ?_) fun h e d => ?_
    · match r with
      | .error e => exact (safe_ofExcept _).bind fun _ => safe_pure _
      | .ok y => exact (safe_ofExcept _).bind fun _ => safe_pure _
    · obtain ⟨e', h1, _⟩ := (hb' h).2.2 e
      exact ⟨e', ofExcept_bind_run h1 _ d⟩
end

/-! ## Executions -/

theorem openAfter_step (o : Nat) (op : Op) (r : OpRes op) (h : Allowed n o op) (tr : List ((op : Op) × OpRes op)) : (o : Int) + openAfter (⟨op, r⟩ :: tr) = opened o op r + openAfter tr := by
  cases op <;> cases r <;> try rfl
  all_goals simp only [Allowed] at h
  · show (o : Int) + (openAfter tr + 1) = ((o + 1 : Nat) : Int) + openAfter tr; omega
  · show (o : Int) + (openAfter tr - 1) = ((o - 1 : Nat) : Int) + openAfter tr; omega
  · show (o : Int) + (openAfter tr + 1) = ((o + 1 : Nat) : Int) + openAfter tr; omega
  · show (o : Int) + (openAfter tr - 1) = ((o - 1 : Nat) : Int) + openAfter tr; omega

theorem Safe.trace {Q : α → Nat → Prop} {t : Calls Op OpRes α} {tr : List ((op : Op) × OpRes op)} (ht : Trace t tr) : ∀ {o : Nat}, o ≤ n → Safe n o t Q →
    0 ≤ (o : Int) + openAfter tr ∧ (o : Int) + openAfter tr ≤ n := by
  induction ht with
  | nil t => intro o ho _; unfold openAfter; omega
  | call op k r tr h ih =>
    intro o ho hs
    obtain ⟨h1, h2⟩ := hs
    rw [openAfter_step o op r h1]
    refine ih ?_ (h2 r)
    cases op <;> cases r <;> first | exact ho | (simp only [Allowed] at h1; first | (show o + 1 ≤ n; omega) | (show o - 1 ≤ n; omega))

theorem Safe.done {Q : α → Nat → Prop} {t : Calls Op OpRes α} {tr : List ((op : Op) × OpRes op)} {a : α} (ht : Done t tr a) : ∀ {o : Nat}, Safe n o t Q →
    ∃ o' : Nat, Q a o' ∧ (o : Int) + openAfter tr = o' := by
  induction ht with
  | ret a => intro o hs; exact ⟨o, hs, by unfold openAfter; omega⟩
  | call op k r tr a h ih =>
    intro o hs
    obtain ⟨h1, h2⟩ := hs
    rw [openAfter_step o op r h1]
    exact ih (h2 r)

theorem Safe.calls {Q : α → Nat → Prop} {t : Calls Op OpRes α} {tr : List ((op : Op) × OpRes op)} (ht : Trace t tr) : ∀ {o : Nat}, Safe n o t Q →
    ∀ c ∈ tr, neutral c.1 = true ∨ c.1 = .beginArray ∨ c.1 = .beginObject ∨ c.1 = .endArray ∨ c.1 = .endObject := by
  induction ht with
  | nil t => intro o _ c hc; cases hc
  | call op k r tr h ih =>
    intro o hs c hc
    obtain ⟨h1, h2⟩ := hs
    rcases List.mem_cons.1 hc with rfl | hc
    · cases op <;> first | exact .inl rfl | simp_all [Allowed, neutral]
    · exact ih (h2 r) c hc

theorem safe_run (max : Nat) (d : De V) : Safe max 0 (De.run max d) (fun _ _ => True) := by
  unfold De.run
  refine Safe.bind _ _ (Safe.mono ?_ _ (safe_deserialize (n := max) (b := False) d (fun h => h.elim) 0 0 (Nat.le_refl _) (Nat.zero_le _)))
  intro x o' _
  trivial

theorem safe_next (d : De V) : Safe defaultMaxNestingDepth 0 (deserializeNext d) (fun _ _ => True) := by
  unfold deserializeNext
  refine ⟨rfl, fun r => ?_⟩
  cases r with
  | ok o => exact safe_run _ d
  | error e => trivial

end Verif.De
