import Verif.Proofs.Abs.StrRd
/-! # Usage rules: allowed calls do not panic, other calls do -/

namespace Verif.Abs
open Reader Utf8 Json Usage

variable {st : Settings} {inp : Bytes} {g : Prop} {c : Ctx} {l : Lead} {pos : Pos} {r : Bytes} {s : St}

/-- the call panics because of incorrect usage -/
def Panics {α : Type} (m : R AbsSrc α) (s : St) : Prop := ∃ p s', m.run s = .err (.panic (.usage p)) s'

theorem Panics.bind {α β : Type} {m : R AbsSrc α} {f : α → R AbsSrc β} (h : Panics m s) : Panics (m >>= f) s := by
  obtain ⟨p, s', h⟩ := h
  exact ⟨p, s', M.bind_err h⟩

theorem Panics.wp {α : Type} {m : R AbsSrc α} {Q : α → St → Prop} {E : RErr → St → Prop} (h : Panics m s) (hE : ∀ p s', E (.panic (.usage p)) s') : Wp m s Q E := by
  obtain ⟨p, s', h⟩ := h
  exact Wp.of_err h (hE p s')

/-! ## Values -/

theorem canValue_iff : c.mode.canValue st.allowMultipleTopLevel = true ↔ c.emn = false ∧ CanPeek st c := by
  unfold Mode.canValue Ctx.mode CanPeek
  cases c with
  | top d =>
    simp only [Ctx.frames, Ctx.root, Ctx.emn, Ctx.top.injEq, Bool.not_false, Bool.true_and, Bool.or_eq_true, true_and]
    cases d <;> simp
  | arr => simp [Ctx.frames, Ctx.emn]
  | obj => simp [Ctx.frames, Ctx.emn]
  | val => simp [Ctx.frames, Ctx.emn]

/-- what matters for the usage rules -/
structure Looks (st : Settings) (c : Ctx) (s : St) : Prop where
  emn : s.expectsMemberName = c.emn
  stack : s.stack = c.stack
  isEmpty : s.isEmpty = c.isEmpty
  settings : s.settings = st
  sra : s.stringReaderActive = false
  peeked : ¬ CanPeek st c → s.peeked = none

theorem At.looks (h : At st inp g c s) : Looks st c s := ⟨h.emn, h.stack, h.isEmpty, h.settings, h.sra, fun hc => by
  cases h with
  | p h => exact absurd (canPeek_lead h.lead) hc
  | n h => rfl⟩

theorem pio_panics (h : Looks st c s) (hc : ¬ CanPeek st c) : Panics peekInternalOptional s := by
  cases c with
  | top d =>
    have hd : d ≠ [] ∧ st.allowMultipleTopLevel = false := by
      refine ⟨?_, ?_⟩
      · rintro rfl; exact hc fun d hd => by cases hd; exact .inl rfl
      · cases hm : st.allowMultipleTopLevel with
        | false => rfl
        | true => exact absurd (fun d _ => .inr hm) hc
    unfold peekInternalOptional Panics
    rw [run_get, h.sra, if_neg (by exact Bool.false_ne_true), h.peeked hc, if_neg (by exact Bool.false_ne_true), if_pos]
    · exact ⟨_, _, rfl⟩
    · unfold isBehindTopLevel
      rw [h.isEmpty, h.stack, h.settings, hd.2]
      simp [Ctx.stack, Ctx.isEmpty, hd.1]
  | arr => exact absurd (isTop_canPeek rfl) hc
  | obj => exact absurd (isTop_canPeek rfl) hc
  | val => exact absurd (isTop_canPeek rfl) hc

theorem pi_panics (h : Looks st c s) (hc : ¬ CanPeek st c) : Panics peekInternal s := (pio_panics h hc).bind

theorem sev_panics {t : ValueType} {chk : Bool} (h : Looks st c s) (hc : ¬ (c.emn = false ∧ CanPeek st c)) : Panics (startExpectedValueType t chk) s := by
  unfold startExpectedValueType Panics
  rw [run_get, h.emn]
  cases he : c.emn with
  | true => rw [if_pos rfl]; exact ⟨_, _, rfl⟩
  | false =>
    rw [if_neg (by decide)]
    exact (pi_panics h fun h' => hc ⟨he, h'⟩).bind

theorem peek_panics (h : Looks st c s) (hc : ¬ (c.emn = false ∧ CanPeek st c)) : Panics peek s := by
  unfold peek Panics
  rw [run_get, h.emn]
  cases he : c.emn with
  | true => rw [if_pos rfl]; exact ⟨_, _, rfl⟩
  | false =>
    rw [if_neg (by decide)]
    exact (pi_panics h fun h' => hc ⟨he, h'⟩).bind

theorem skipValueLoop_zero_eq (f : Nat) (he : s.expectsMemberName = false) {s' : St} {e : RErr} (h : peek.run s = .err e s') : (skipValueLoop (f + 1) 0).run s = .err e s' := by
  unfold skipValueLoop atContainerEnd
  rw [if_neg (by decide), M.bind_ok (a := false) (s' := s) rfl]
  refine M.bind_err ?_
  rw [if_neg (by decide)]
  have h1 : (skipNameIfExpected : R AbsSrc Unit).run s = .ok () s := by
    unfold skipNameIfExpected
    rw [run_get, he, if_neg (by decide)]
    rfl
  rw [M.bind_ok h1]
  refine M.bind_err ?_
  unfold skipValueStart
  exact M.bind_err h

theorem skipValue_panics (h : Looks st c s) (hc : ¬ (c.emn = false ∧ CanPeek st c)) : Panics skipValue s := by
  unfold skipValue Panics
  rw [run_get, h.emn]
  cases he : c.emn with
  | true => rw [if_pos rfl]; exact ⟨_, _, rfl⟩
  | false =>
    rw [if_neg (by decide)]
    obtain ⟨p, s', hp⟩ := peek_panics h hc
    rw [fuel_eq]
    exact ⟨p, s', skipValueLoop_zero_eq _ (by rw [h.emn, he]) hp⟩

/-! ## Other methods -/

theorem beforeName_panics (h : Looks st c s) (hc : c.emn = false) : Panics beforeName s := by
  unfold beforeName Panics
  rw [run_get, h.emn, hc, if_pos (by rfl)]
  exact ⟨_, _, rfl⟩

theorem endArray_panics (h : Looks st c s) (hc : ∀ u l d, c ≠ .arr u l d) : Panics endArray s := by
  unfold endArray isInArray Panics
  rw [run_get, h.stack, if_pos]
  · exact ⟨_, _, rfl⟩
  · cases c <;> first | rfl | exact absurd rfl (hc _ _ _)

theorem endObject_panics (h : Looks st c s) (hc : c.emn = false) : Panics endObject s := by
  unfold endObject isInObject expectsMemberValue isInObject Panics
  rw [run_get, h.stack, h.emn]
  cases c with
  | obj => exact Bool.noConfusion hc
  | top => rw [if_pos (by rfl)]; exact ⟨_, _, rfl⟩
  | arr => rw [if_pos (by rfl)]; exact ⟨_, _, rfl⟩
  | val => rw [if_neg (by exact Bool.false_ne_true), if_pos (by rfl)]; exact ⟨_, _, rfl⟩

theorem hasNext_panics (h : Looks st c s) (hc : c.mode.canHasNext st.allowMultipleTopLevel = false) : Panics hasNext s := by
  unfold hasNext expectsMemberValue isInObject Panics
  rw [run_get, h.stack, h.emn]
  cases c with
  | arr => exact Bool.noConfusion hc
  | obj => exact Bool.noConfusion hc
  | val => rw [if_pos (by rfl)]; exact ⟨_, _, rfl⟩
  | top d =>
    rw [if_neg (by exact Bool.false_ne_true)]
    refine Panics.bind ?_
    unfold Panics
    rw [if_pos (by rfl), h.isEmpty]
    cases d with
    | nil => rw [if_pos (by rfl)]; exact ⟨_, _, rfl⟩
    | cons x d =>
      rw [if_neg (by exact Bool.false_ne_true), if_pos]
      · exact ⟨_, _, rfl⟩
      · rw [h.settings]
        have : st.allowMultipleTopLevel = false := by
          simpa [Mode.canHasNext, Ctx.mode, Ctx.frames, Ctx.root] using hc
        rw [this]
        rfl

/-! ## An active string value reader -/

section
variable (hs : s.stringReaderActive = true)
include hs

theorem active_pio : Panics peekInternalOptional s := ⟨.peekStringReaderActive, s, by
  unfold peekInternalOptional
  rw [run_get, if_pos hs]
  rfl⟩

theorem active_pi : Panics peekInternal s := (active_pio hs).bind

theorem active_sev {t : ValueType} {chk : Bool} : Panics (startExpectedValueType t chk) s := by
  unfold startExpectedValueType Panics
  rw [run_get]
  split
  · exact ⟨_, _, rfl⟩
  · exact (active_pi hs).bind

theorem active_peek : Panics peek s := by
  unfold peek Panics
  rw [run_get]
  split
  · exact ⟨_, _, rfl⟩
  · exact (active_pi hs).bind

theorem active_skipValue : Panics skipValue s := by
  unfold skipValue Panics
  rw [run_get]
  split
  · exact ⟨_, _, rfl⟩
  · rename_i he
    obtain ⟨p, s', hp⟩ := active_peek hs
    rw [fuel_eq]
    exact ⟨p, s', skipValueLoop_zero_eq _ (by simpa using he) hp⟩

theorem active_beforeName : Panics beforeName s := by
  unfold beforeName Panics
  rw [run_get]
  split
  · exact ⟨_, _, rfl⟩
  · exact ⟨_, _, rfl⟩

theorem active_endArray : Panics endArray s := by
  unfold endArray Panics
  rw [run_get]
  split
  · exact ⟨_, _, rfl⟩
  · exact (active_pi hs).bind

theorem active_endObject : Panics endObject s := by
  unfold endObject Panics
  rw [run_get]
  split
  · exact ⟨_, _, rfl⟩
  · split
    · exact ⟨_, _, rfl⟩
    · exact (active_pi hs).bind

theorem active_hasNext : Panics hasNext s := by
  unfold hasNext Panics
  rw [run_get]
  split
  · exact ⟨_, _, rfl⟩
  · refine Panics.bind ?_
    unfold Panics
    split
    · split
      · exact ⟨_, _, rfl⟩
      · split
        · exact ⟨_, _, rfl⟩
        · exact active_pio hs
    · exact (active_pi hs).bind

theorem active_finishArray : Panics finishArray s := by
  unfold finishArray Panics
  rw [run_get, fuel_eq]
  refine Panics.bind ?_
  rw [skipItems_succ]
  exact (active_hasNext hs).bind

theorem active_finishObject : Panics finishObject s := by
  unfold finishObject Panics
  rw [run_get, fuel_eq]
  refine Panics.bind ?_
  rw [skipMembers_succ]
  exact (active_hasNext hs).bind

/-- while a string value reader is active all other methods panic -/
theorem active_panics {m : Mode} {op : Op} {b : Bool} (h : ({ m with str := true } : Mode).allowed b op = false) : Panics (runOp op) s := by
  have sev : ∀ {t chk}, Panics (startExpectedValueType t chk) s := active_sev hs
  cases op with
  | peek => exact (active_peek hs).bind
  | beginArray => exact Panics.bind (Panics.bind (Panics.bind sev))
  | endArray => exact Panics.bind (active_endArray hs)
  | beginObject => exact Panics.bind (Panics.bind (Panics.bind sev))
  | endObject => exact Panics.bind (active_endObject hs)
  | nextName => exact Panics.bind (Panics.bind (active_beforeName hs))
  | nextNameOwned => exact Panics.bind (Panics.bind (active_beforeName hs))
  | nextString => exact Panics.bind (Panics.bind sev)
  | nextStr => exact Panics.bind (Panics.bind sev)
  | stringReader lens => exact Panics.bind (Panics.bind sev)
  | nextNumberAsStr => exact Panics.bind (Panics.bind (Panics.bind sev))
  | nextNumberAsString => exact Panics.bind (Panics.bind (Panics.bind sev))
  | nextBool => exact Panics.bind (Panics.bind sev)
  | nextNull => exact Panics.bind (Panics.bind sev)
  | hasNext => exact Panics.bind (active_hasNext hs)
  | skipName => exact Panics.bind (Panics.bind (active_beforeName hs))
  | skipValue => exact Panics.bind (active_skipValue hs)
  | skipToTopLevel =>
    refine Panics.bind ?_
    unfold skipToTopLevel Panics
    rw [run_get, if_pos hs]
    exact ⟨_, _, rfl⟩
  | seekTo path => exact Panics.bind (Panics.bind (active_peek hs))
  | seekBack path =>
    refine Panics.bind ?_
    unfold seekBack
    cases hp : path.reverse with
    | nil => simp [Mode.allowed, hp, Mode.canSeekBack] at h
    | cons q ps =>
      cases q with
      | arrayItem => exact (active_finishArray hs).bind
      | objectMember => exact (active_finishObject hs).bind
  | currentPosition b => exact Bool.noConfusion h
  | consumeTrailingWhitespace =>
    refine Panics.bind ?_
    unfold consumeTrailingWhitespace Panics
    rw [run_get, if_pos hs]
    exact ⟨_, _, rfl⟩

end

/-! ## `seek_back` -/

/-- errors of calls which are possibly not allowed -/
def EU (st : Settings) (inp : Bytes) (g : Prop) (bad : Bool) (e : RErr) (s : St) : Prop :=
  EOk st inp g (fun _ => True) e s ∨ (bad = true ∧ ∃ p, e = .panic (.usage p))

theorem EU.ok {α : Type} {bad : Bool} {m : R AbsSrc α} {Q : α → St → Prop} (h : Wp m s Q (EOk st inp g fun _ => True)) : Wp m s Q (EU st inp g bad) :=
  h.mono (fun _ _ h => h) fun _ _ h => .inl h

theorem Panics.eu {α : Type} {m : R AbsSrc α} {Q : α → St → Prop} (h : Panics m s) : Wp m s Q (EU st inp g true) := h.wp fun p _ => .inr ⟨rfl, p, rfl⟩

theorem skipItems_any : ∀ {fuel : Nat} {c : Ctx} {s : St}, At st inp g c s → (∀ u l d, c ≠ .arr u l d) → mu s < fuel →
    Wp (skipItems fuel) s (fun _ s' => ∃ c', At st inp g c' s' ∧ ∀ u l d, c' ≠ .arr u l d) (EU st inp g true) := by
  intro fuel
  induction fuel with
  | zero => intro c s _ _ h; omega
  | succ fuel ih =>
    intro c s h hc hf
    rw [skipItems_succ]
    by_cases hcan : c.mode.canHasNext st.allowMultipleTopLevel = true
    · cases c with
      | arr => exact absurd rfl (hc _ _ _)
      | val => exact Bool.noConfusion hcan
      | obj u lu d =>
        refine Wp.bind' (EU.ok (hasNext_wp h rfl rfl)) ?_
        rintro b _ ⟨p, l, pos, r, rfl, rfl, hP, hm⟩
        refine Wp.ite (fun _ => ?_) fun _ => Wp.pure ⟨_, .p hP, nofun⟩
        exact ((skipValue_panics (At.looks (.p hP)) fun h => Bool.noConfusion h.1).bind).eu
      | top d =>
        have hd : d ≠ [] ∧ st.allowMultipleTopLevel = true := by
          simpa [Mode.canHasNext, Ctx.mode, Ctx.frames, Ctx.root] using hcan
        refine Wp.bind' (EU.ok (hasNext_top_wp h hd.1 hd.2)) ?_
        rintro b _ (⟨rfl, p, l, pos, r, _, rfl, hP, hm⟩ | ⟨rfl, pos, r, pos', rfl, _, rfl, hN⟩)
        · rw [if_pos rfl]
          refine Wp.bind' (EU.ok (skipValue_wp (.p hP) (fun _ _ => .inr hd.2) rfl)) ?_
          rintro _ _ ⟨v, l', pos', r', hsl, rfl, hN, hm'⟩
          refine ih (.n hN.toInvN) ?_ (by omega)
          cases l' with
          | ws => exact nofun
          | sep => exact hsl.elim
          | colon => exact hsl.elim
        · rw [if_neg (by decide)]
          exact Wp.pure ⟨_, .n hN, nofun⟩
    · exact ((hasNext_panics h.looks (by simpa using hcan)).bind).eu

theorem finishArray_any (h : At st inp g c s) (hc : ∀ u l d, c ≠ .arr u l d) : Wp finishArray s (fun _ _ => False) (EU st inp g true) := by
  unfold finishArray
  refine Wp.get (Wp.bind' (skipItems_any h hc (fuel_mu h)) ?_)
  rintro _ s' ⟨c', h', hc'⟩
  exact (endArray_panics h'.looks hc').eu

theorem skipMembers_any : ∀ {fuel : Nat}, At st inp g c s → c.emn = false → mu s < fuel →
    Wp (skipMembers fuel) s (fun _ s' => ∃ c', At st inp g c' s' ∧ c'.emn = false) (EU st inp g true) := by
  intro fuel h hc hf
  cases fuel with
  | zero => omega
  | succ fuel =>
    rw [skipMembers_succ]
    by_cases hcan : c.mode.canHasNext st.allowMultipleTopLevel = true
    · cases c with
      | obj => exact Bool.noConfusion hc
      | val => exact Bool.noConfusion hcan
      | arr u lu d =>
        refine Wp.bind' (EU.ok (hasNext_wp h rfl rfl)) ?_
        rintro b _ ⟨p, l, pos, r, rfl, rfl, hP, hm⟩
        refine Wp.ite (fun _ => ?_) fun _ => Wp.pure ⟨_, .p hP, rfl⟩
        exact (Panics.bind (Panics.bind (beforeName_panics (At.looks (.p hP)) rfl))).eu
      | top d =>
        have hd : d ≠ [] ∧ st.allowMultipleTopLevel = true := by
          simpa [Mode.canHasNext, Ctx.mode, Ctx.frames, Ctx.root] using hcan
        refine Wp.bind' (EU.ok (hasNext_top_wp h hd.1 hd.2)) ?_
        rintro b _ (⟨rfl, p, l, pos, r, _, rfl, hP, hm⟩ | ⟨rfl, pos, r, pos', rfl, _, rfl, hN⟩)
        · rw [if_pos rfl]
          exact (Panics.bind (Panics.bind (beforeName_panics (At.looks (.p hP)) rfl))).eu
        · rw [if_neg (by decide)]
          exact Wp.pure ⟨_, .n hN, rfl⟩
    · exact ((hasNext_panics h.looks (by simpa using hcan)).bind).eu

theorem finishObject_any (h : At st inp g c s) (hc : c.emn = false) : Wp finishObject s (fun _ _ => False) (EU st inp g true) := by
  unfold finishObject
  refine Wp.get (Wp.bind' (skipMembers_any h hc (fuel_mu h)) ?_)
  rintro _ s' ⟨c', h', hc'⟩
  exact (endObject_panics h'.looks hc').eu

/-! ## Modes -/

theorem mode_add {v : Cst} (h : c.Slot l) : (c.add l v).mode = c.mode.valueDone := by
  cases c <;> cases l <;> first | exact h.elim | skip
  · simp [Ctx.add, Ctx.mode, Ctx.frames, Ctx.root, Mode.valueDone]
  · rfl
  · rfl

theorem mode_arr {d : List (Sep × Cst)} : (Ctx.arr c l d).mode = c.mode.push .array := rfl
theorem mode_obj {d : List Mem} : (Ctx.obj c l d).mode = c.mode.push .objectName := rfl
theorem mode_pop {m : Mode} {f : Frame} : (m.push f).pop = m.valueDone := rfl

theorem canName_iff : c.mode.canName = c.emn := by cases c <;> rfl

theorem canEndArray_iff : c.mode.canEndArray = true ↔ ∃ u l d, c = .arr u l d := by
  cases c <;> simp [Mode.canEndArray, Ctx.mode, Ctx.frames]

theorem seekBackLoop_any : ∀ {ps : List PathPiece} {c : Ctx} {s : St}, At st inp g c s →
    Wp (seekBackLoop ps) s (fun _ s' => Mode.canSeekBack ps c.mode = true ∧ ∃ c', c'.mode = ps.foldl (fun m _ => m.pop) c.mode ∧ At st inp g c' s') (EU st inp g !Mode.canSeekBack ps c.mode) := by
  intro ps
  induction ps with
  | nil => intro c s h; exact Wp.pure ⟨rfl, c, rfl, h⟩
  | cons q ps ih =>
    intro c s h
    cases q with
    | arrayItem i =>
      by_cases hc : c.mode.canEndArray = true
      · obtain ⟨u, lu, d, rfl⟩ := canEndArray_iff.1 hc
        refine Wp.bind' (EU.ok (finishArray_wp h)) ?_
        rintro _ s1 ⟨d', cl, hsl, pos, r, rfl, hN, _⟩
        refine (ih (.n hN.toInvN)).mono ?_ ?_
        · rintro _ s' ⟨h1, c', h2, h3⟩
          refine ⟨?_, c', ?_, h3⟩
          · rw [mode_add hsl] at h1; exact h1
          · rw [mode_add hsl] at h2; exact h2
        · intro e s' he
          rw [mode_add hsl] at he
          exact he
      · have hf : Mode.canSeekBack (.arrayItem i :: ps) c.mode = false := by
          unfold Mode.canSeekBack; rw [eq_false_of_ne_true hc]; rfl
        rw [hf]
        refine Wp.bind' (finishArray_any h fun u l d he => hc (canEndArray_iff.2 ⟨u, l, d, he⟩)) ?_
        exact fun _ _ h => h.elim
    | objectMember n =>
      by_cases hc : c.mode.canName = true
      · cases c with
        | top => exact Bool.noConfusion hc
        | arr => exact Bool.noConfusion hc
        | val => exact Bool.noConfusion hc
        | obj u lu d =>
          refine Wp.bind' (EU.ok (finishObject_wp h)) ?_
          rintro _ s1 ⟨d', cl, hsl, pos, r, rfl, hN, _⟩
          refine (ih (.n hN.toInvN)).mono ?_ ?_
          · rintro _ s' ⟨h1, c', h2, h3⟩
            refine ⟨?_, c', ?_, h3⟩
            · rw [mode_add hsl] at h1; exact h1
            · rw [mode_add hsl] at h2; exact h2
          · intro e s' he
            rw [mode_add hsl] at he
            exact he
      · have hf : Mode.canSeekBack (.objectMember n :: ps) c.mode = false := by
          unfold Mode.canSeekBack; rw [eq_false_of_ne_true hc]; rfl
        rw [hf]
        refine Wp.bind' (finishObject_any h (by rw [← canName_iff]; exact eq_false_of_ne_true hc)) ?_
        exact fun _ _ h => h.elim

/-! ## All calls -/

theorem EOk.mono {K K' : Mode → Prop} {e : RErr} (h : EOk st inp g K e s) (hK : ∀ m, K m → K' m) : EOk st inp g K' e s := by
  cases e with
  | «syntax» => trivial
  | io k => cases k <;> first | trivial | exact h
  | unexpectedValueType => obtain ⟨c, h1, h2⟩ := h; exact ⟨c, hK _ h1, h2⟩
  | unexpectedStructure => obtain ⟨c, h1, h2⟩ := h; exact ⟨c, hK _ h1, h2⟩
  | maxNestingDepthExceeded => obtain ⟨c, h1, h2⟩ := h; exact ⟨c, hK _ h1, h2⟩
  | unsupportedNumberValue => obtain ⟨c, h1, h2⟩ := h; exact ⟨c, hK _ h1, h2⟩
  | panic => exact h
  | outOfFuel => exact h

theorem wp_unit {m : R AbsSrc Unit} {Q : Out → St → Prop} {Q' : Unit → St → Prop} {E : RErr → St → Prop} (h : Wp m s Q' E) (hQ : ∀ s', Q' () s' → Q .unit s') : Wp (unitOut m) s Q E :=
  h.bind' fun _ s' h => Wp.pure (hQ s' h)

theorem VPost.inv {v : Cst} {s' : St} (h : VPost st inp g c s v s') : Inv st inp g c.mode.valueDone s' := by
  obtain ⟨l, pos, r, hsl, rfl, hN, _⟩ := h
  rw [← mode_add hsl]
  exact .at (.n hN.toInvN)

theorem NPost.inv {up : Ctx} {lu : Lead} {d : List Mem} {x : Str} {s' : St} (h : NPost st inp g up lu d s x s') :
    Inv st inp g { (Ctx.obj up lu d).mode with frames := .objectValue :: (Ctx.obj up lu d).mode.frames.tail } s' := by
  obtain ⟨_, sp, pos, r, rfl, hN, _⟩ := h
  exact .at (.n hN)

theorem CPost.inv {up : Ctx} {lu : Lead} {v : Cst} {s' : St} (h : CPost st inp g up lu s v s') : Inv st inp g up.mode.valueDone s' := by
  obtain ⟨hsl, pos, r, rfl, hN, _⟩ := h
  rw [← mode_add hsl]
  exact .at (.n hN.toInvN)

theorem seekTo_mode {ps : List PathPiece} {c c' : Ctx} (h : SeekTo ps c c') : c'.mode = { c.mode with frames := ps.reverse.map Mode.pieceFrame ++ c.mode.frames } := by
  induction h with
  | nil => rfl
  | item l d _ ih => rw [ih, List.reverse_cons, List.map_append, List.append_assoc]; rfl
  | member l d sp x _ _ ih => rw [ih, List.reverse_cons, List.map_append, List.append_assoc]; rfl

theorem foldl_pop : ∀ (ps qs : List PathPiece) (m : Mode), ps.length = qs.length → ps.foldl (fun m _ => m.pop) m = qs.foldl (fun m _ => m.pop) m
  | [], [], _, _ => rfl
  | _ :: ps, _ :: qs, m, h => foldl_pop ps qs m.pop (Nat.succ.inj h)

theorem obj_of_emn (h : c.emn = true) : ∃ u l d, c = .obj u l d := by
  cases c with
  | obj u l d => exact ⟨u, l, d, rfl⟩
  | _ => exact Bool.noConfusion h

theorem pieces_length (lens : List Nat) (x : Bytes) : (pieces lens x).flatten.length = min lens.sum x.length := by
  induction lens generalizing x with
  | nil => simp [pieces]
  | cons n lens ih =>
    simp only [pieces, List.flatten_cons, List.length_append, List.length_take, ih, List.length_drop, List.sum_cons]
    omega

/-- allowed calls do not panic, and the mode is updated as specified -/
theorem allowed_wp {op : Op} (h : At st inp g c s) (ho : c.mode.allowed st.allowMultipleTopLevel op = true) (hne : op ≠ .consumeTrailingWhitespace) :
    Wp (runOp op) s (fun o s' => Inv st inp g (c.mode.next o op) s') (EOk st inp g fun m => Mode.composite op = false → m = c.mode) := by
  have hT : ∀ {α : Type} {m : R AbsSrc α} {Q : α → St → Prop} {K : Mode → Prop}, (∀ m, K m) → Wp m s Q (EOk st inp g fun _ => True) → Wp m s Q (EOk st inp g K) :=
    fun hK h => h.mono (fun _ _ h => h) fun _ _ h => h.mono fun m _ => hK m
  cases op with
  | peek =>
    obtain ⟨he, hc⟩ := canValue_iff.1 ho
    refine Wp.bind' (peek_wp h hc he fun _ => rfl) ?_
    rintro _ _ ⟨p, l, pos, r, _, _, rfl, hP, _⟩
    exact Wp.pure (.at (.p hP))
  | beginArray =>
    obtain ⟨he, hc⟩ := canValue_iff.1 ho
    refine wp_unit (beginArray_wp h hc he fun _ => rfl) ?_
    rintro _ ⟨l, pos, r, rfl, hN, _⟩
    exact .at (.n hN)
  | beginObject =>
    obtain ⟨he, hc⟩ := canValue_iff.1 ho
    refine wp_unit (beginObject_wp h hc he fun _ => rfl) ?_
    rintro _ ⟨l, pos, r, rfl, hN, _⟩
    exact .at (.n hN)
  | endArray =>
    obtain ⟨u, l, d, rfl⟩ := canEndArray_iff.1 ho
    refine wp_unit (endArray_wp h fun _ => rfl) ?_
    rintro _ ⟨cl, pos, r, h1, h2, h3, h4⟩
    exact CPost.inv ⟨h1, pos, r, h2, h3, h4⟩
  | endObject =>
    obtain ⟨u, l, d, rfl⟩ := obj_of_emn (canName_iff.symm.trans ho)
    refine wp_unit (endObject_wp h fun _ => rfl) ?_
    rintro _ ⟨cl, pos, r, h1, h2, h3, h4⟩
    exact CPost.inv ⟨h1, pos, r, h2, h3, h4⟩
  | nextName =>
    obtain ⟨u, l, d, rfl⟩ := obj_of_emn (canName_iff.symm.trans ho)
    refine Wp.bind' (nextName_wp h fun _ => rfl) ?_
    rintro _ s' ⟨x, _, hN⟩
    exact Wp.pure hN.inv
  | nextNameOwned =>
    obtain ⟨u, l, d, rfl⟩ := obj_of_emn (canName_iff.symm.trans ho)
    refine Wp.bind' (nextNameOwned_wp h fun _ => rfl) ?_
    rintro _ s' ⟨x, _, hN⟩
    exact Wp.pure hN.inv
  | skipName =>
    obtain ⟨u, l, d, rfl⟩ := obj_of_emn (canName_iff.symm.trans ho)
    refine wp_unit (skipName_wp h fun _ => rfl) ?_
    rintro s' ⟨x, hN⟩
    exact hN.inv
  | nextString =>
    obtain ⟨he, hc⟩ := canValue_iff.1 ho
    refine Wp.bind' (nextString_wp h hc he fun _ => rfl) ?_
    rintro _ s' ⟨x, _, _, hV⟩
    exact Wp.pure hV.inv
  | nextStr =>
    obtain ⟨he, hc⟩ := canValue_iff.1 ho
    refine Wp.bind' (nextStr_wp h hc he fun _ => rfl) ?_
    rintro _ s' ⟨x, _, _, hV⟩
    exact Wp.pure hV.inv
  | nextNumberAsStr =>
    obtain ⟨he, hc⟩ := canValue_iff.1 ho
    refine Wp.bind' (nextNumberAsStr_wp h hc he fun _ => rfl) ?_
    rintro _ s' ⟨x, _, _, _, hV⟩
    exact Wp.pure hV.inv
  | nextNumberAsString =>
    obtain ⟨he, hc⟩ := canValue_iff.1 ho
    refine Wp.bind' (nextNumberAsString_wp h hc he fun _ => rfl) ?_
    rintro _ s' ⟨x, _, _, _, hV⟩
    exact Wp.pure hV.inv
  | nextBool =>
    obtain ⟨he, hc⟩ := canValue_iff.1 ho
    refine Wp.bind' (nextBool_wp h hc he fun _ => rfl) ?_
    rintro _ s' hV
    exact Wp.pure hV.inv
  | nextNull =>
    obtain ⟨he, hc⟩ := canValue_iff.1 ho
    refine wp_unit (nextNull_wp h hc he fun _ => rfl) ?_
    rintro s' hV
    exact hV.inv
  | stringReader lens =>
    obtain ⟨he, hc⟩ := canValue_iff.1 ho
    refine (stringReader_wp h hc he lens fun _ => rfl).post ?_
    rintro o s' ⟨rs, rfl, hS⟩
    unfold Mode.next Mode.strDone
    dsimp only
    rcases hS with ⟨x, _, rfl, hlt, hV⟩ | ⟨cs, pos, r, rfl, hle, _, hI, _⟩
    · rw [if_pos (by rw [pieces_length, decide_eq_true_eq]; omega)]
      exact hV.inv
    · rw [if_neg (by rw [pieces_length, decide_eq_true_eq]; omega)]
      exact hI
  | skipValue =>
    obtain ⟨he, hc⟩ := canValue_iff.1 ho
    refine hT (fun _ => nofun) (wp_unit (skipValue_wp h hc he) ?_)
    rintro s' ⟨v, hV⟩
    exact hV.inv
  | hasNext =>
    cases c with
    | top d =>
      have hd : d ≠ [] ∧ st.allowMultipleTopLevel = true := by
        simpa [Mode.allowed, Mode.canHasNext, Ctx.mode, Ctx.frames, Ctx.root] using ho
      refine Wp.bind' (hasNext_top_wp h hd.1 hd.2) ?_
      rintro b _ (⟨rfl, p, l, pos, r, _, rfl, hP, hm⟩ | ⟨rfl, pos, r, pos', rfl, _, rfl, hN⟩)
      · exact Wp.pure (.at (.p hP))
      · exact Wp.pure (.at (.n hN))
    | val => exact Bool.noConfusion ho
    | arr =>
      refine Wp.bind' (hasNext_wp h rfl rfl fun _ => rfl) ?_
      rintro _ _ ⟨p, l, pos, r, _, rfl, hP, _⟩
      exact Wp.pure (.at (.p hP))
    | obj =>
      refine Wp.bind' (hasNext_wp h rfl rfl fun _ => rfl) ?_
      rintro _ _ ⟨p, l, pos, r, _, rfl, hP, _⟩
      exact Wp.pure (.at (.p hP))
  | skipToTopLevel =>
    refine hT (fun _ => nofun) (wp_unit (skipToTopLevel_wp h) ?_)
    rintro s' (⟨h1, rfl⟩ | ⟨h1, w, v, h2, _⟩)
    · have : c.mode.frames.isEmpty = true := by cases c <;> first | rfl | exact Bool.noConfusion h1
      unfold Mode.next
      rw [if_pos this]
      exact .at h
    · have : ¬ c.mode.frames.isEmpty = true := by cases c <;> first | exact Bool.false_ne_true | exact Bool.noConfusion h1
      unfold Mode.next
      rw [if_neg this]
      have := Inv.at h2
      rw [show (Ctx.top (c.root ++ [(w, v)])).mode = ⟨[], true, false⟩ by simp [Ctx.mode, Ctx.frames, Ctx.root]] at this
      exact this
  | seekTo path =>
    obtain ⟨he, hc⟩ := canValue_iff.1 ho
    refine hT (fun _ => nofun) (wp_unit (seekTo_wp h hc he) ?_)
    rintro s' ⟨c', h1, h2, _⟩
    have := Inv.at h1
    rw [seekTo_mode h2] at this
    exact this
  | seekBack path =>
    refine hT (fun _ => nofun) (wp_unit (Wp.mono (seekBackLoop_any h) (fun _ _ h => h) ?_) ?_)
    · rintro e s' (he | ⟨hb, _⟩)
      · exact he
      · rw [show Mode.canSeekBack path.reverse c.mode = true from ho] at hb
        exact Bool.noConfusion hb
    · rintro s' ⟨_, c', h1, h2⟩
      unfold Mode.next
      have := Inv.at h2
      rw [h1, foldl_pop _ path _ List.length_reverse] at this
      exact this
  | currentPosition b => exact Wp.get (Wp.pure (.at h))
  | consumeTrailingWhitespace => exact absurd rfl hne

theorem stack_isEmpty : c.stack.isEmpty = c.mode.frames.isEmpty := by cases c <;> rfl

theorem top_of_frames (h : c.mode.frames.isEmpty = true) : ∃ d, c = .top d := by
  cases c with
  | top d => exact ⟨d, rfl⟩
  | _ => exact Bool.noConfusion h

/-- calls which are not allowed panic -/
theorem not_allowed_panics {op : Op} (h : Looks st c s) (ho : c.mode.allowed st.allowMultipleTopLevel op = false) (hne : ∀ p, op ≠ .seekBack p) : Panics (runOp op) s := by
  have hv : c.mode.canValue st.allowMultipleTopLevel = false → ¬ (c.emn = false ∧ CanPeek st c) := fun h h' => by
    rw [canValue_iff.2 h'] at h; exact Bool.noConfusion h
  have hn : c.mode.canName = false → c.emn = false := fun h => canName_iff.symm.trans h
  cases op with
  | peek => exact (peek_panics h (hv ho)).bind
  | beginArray => exact Panics.bind (Panics.bind (Panics.bind (sev_panics h (hv ho))))
  | endArray => exact Panics.bind (endArray_panics h fun u l d he => by rw [show c.mode.allowed _ .endArray = true from canEndArray_iff.2 ⟨u, l, d, he⟩] at ho; exact Bool.noConfusion ho)
  | beginObject => exact Panics.bind (Panics.bind (Panics.bind (sev_panics h (hv ho))))
  | endObject => exact Panics.bind (endObject_panics h (hn ho))
  | nextName => exact Panics.bind (Panics.bind (beforeName_panics h (hn ho)))
  | nextNameOwned => exact Panics.bind (Panics.bind (beforeName_panics h (hn ho)))
  | nextString => exact Panics.bind (Panics.bind (sev_panics h (hv ho)))
  | nextStr => exact Panics.bind (Panics.bind (sev_panics h (hv ho)))
  | stringReader lens => exact Panics.bind (Panics.bind (sev_panics h (hv ho)))
  | nextNumberAsStr => exact Panics.bind (Panics.bind (Panics.bind (sev_panics h (hv ho))))
  | nextNumberAsString => exact Panics.bind (Panics.bind (Panics.bind (sev_panics h (hv ho))))
  | nextBool => exact Panics.bind (Panics.bind (sev_panics h (hv ho)))
  | nextNull => exact Panics.bind (Panics.bind (sev_panics h (hv ho)))
  | hasNext => exact Panics.bind (hasNext_panics h ho)
  | skipName => exact Panics.bind (Panics.bind (beforeName_panics h (hn ho)))
  | skipValue => exact Panics.bind (skipValue_panics h (hv ho))
  | skipToTopLevel => exact Bool.noConfusion ho
  | seekTo path => exact Panics.bind (Panics.bind (peek_panics h (hv ho)))
  | seekBack path => exact absurd rfl (hne path)
  | currentPosition b => exact Bool.noConfusion ho
  | consumeTrailingWhitespace =>
    refine Panics.bind ?_
    unfold consumeTrailingWhitespace Panics
    rw [run_get, h.sra, if_neg (by decide), h.stack, stack_isEmpty, h.isEmpty]
    by_cases hf : c.mode.frames.isEmpty = true
    · obtain ⟨d, rfl⟩ := top_of_frames hf
      rw [if_pos hf, if_pos]
      · exact ⟨_, _, rfl⟩
      · simpa [Mode.allowed, Ctx.mode, Ctx.frames, Ctx.root, Ctx.isEmpty] using ho
    · rw [if_neg hf]; exact ⟨_, _, rfl⟩

/-! ## `consume_trailing_whitespace` -/

theorem consumeTrailing_wp (h : At st inp g c s) (ho : c.mode.allowed st.allowMultipleTopLevel .consumeTrailingWhitespace = true) :
    Lo (runOp .consumeTrailingWhitespace) s (fun o _ => o = .unit ∧ ∃ d, c = .top d ∧ d ≠ [] ∧ ∃ t : TrailWs, t.Ok st.allowComments ∧ s.src.rest = t.bytes ∧
      (g → s.peeked = none → c.Ok st ∧ ∃ t : TrailWs, t.Ok st.allowComments ∧ inp = c.bytes ++ t.bytes)) := by
  simp only [Mode.allowed, Bool.and_eq_true] at ho
  obtain ⟨⟨_, hf⟩, hs⟩ := ho
  obtain ⟨d, rfl⟩ := top_of_frames hf
  have hd : d ≠ [] := by simpa [Ctx.mode, Ctx.root] using hs
  refine Wp.bind' (P := fun _ _ => ∃ t : TrailWs, t.Ok st.allowComments ∧ s.src.rest = t.bytes) ?_ ?_
  · unfold consumeTrailingWhitespace
    refine Wp.get ?_
    rw [h.sra, if_neg (by decide), h.stack, if_pos (by rfl), h.isEmpty, if_neg (by simpa [Ctx.isEmpty] using hd)]
    refine Wp.bind' (skipWhitespace_lo (by cases h <;> rfl)) ?_
    rw [h.settings]
    rintro o _ (⟨w, b, t, hw, hb, rfl, hr, rfl⟩ | ⟨_, rfl, t, ht, hr, rfl⟩)
    · exact Wp.of_err rfl trivial
    · exact Wp.pure ⟨t, ht, hr⟩
  · rintro _ s' ⟨t, ht, hr⟩
    refine Wp.pure ⟨rfl, d, rfl, hd, t, ht, hr, fun hg hp => ?_⟩
    cases h with
    | p => exact absurd hp nofun
    | n h =>
      obtain ⟨h1, h2 | h2⟩ := h.good hg
      · exact ⟨h1, t, ht, by rw [h2.1]; exact congrArg _ hr⟩
      · obtain ⟨_, _, t', h3, h4, _⟩ := h2
        exact ⟨h1, t', h3, h4⟩

end Verif.Abs
