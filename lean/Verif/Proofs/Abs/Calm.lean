import Verif.Proofs.Abs.Calls
import Verif.Proofs.Abs.Mismatch
/-! # Skipping does not report type or structure errors from inside of what is skipped -/

namespace Verif.Abs
open Reader Utf8 Json Usage Sim

/-- `UnexpectedValueType` and `UnexpectedStructure` -/
def mismatch : RErr → Bool
  | .unexpectedValueType _ _ _ => true
  | .unexpectedStructure _ _ => true
  | _ => false

def Calm {α : Type} (m : R AbsSrc α) (s : St) : Prop := ∀ e s', m.run s = .err e s' → mismatch e = false

section
variable {st : Settings} {inp : Bytes} {g : Prop} {c c0 : Ctx} {p : Peeked} {l : Lead} {pos : Pos} {r : Bytes} {s : St} {α β : Type}

theorem Calm.fatal {m : R AbsSrc α} (h : Fatal m) : Calm m s := by
  intro e s' hr
  have := h _ _ _ hr
  cases e <;> first | rfl | cases this

theorem Calm.bind {m : R AbsSrc α} {f : α → R AbsSrc β} (h : Calm m s) (hf : ∀ a s', m.run s = .ok a s' → Calm (f a) s') : Calm (m >>= f) s := by
  intro e s' hr
  rcases M.bind_eq_err.1 hr with hr | ⟨a, s1, h1, h2⟩
  · exact h _ _ hr
  · exact hf _ _ h1 _ _ h2

theorem Calm.wp {m : R AbsSrc α} {f : α → R AbsSrc β} {Q : α → St → Prop} {E : RErr → St → Prop} (h : Calm m s) (hw : Wp m s Q E) (hf : ∀ a s', Q a s' → Calm (f a) s') : Calm (m >>= f) s :=
  h.bind fun a s' hr => hf a s' (hw.ok hr)

theorem Calm.run {m : R AbsSrc α} {f : α → R AbsSrc β} {a : α} {s' : St} (h : m.run s = .ok a s') (hf : Calm (f a) s') : Calm (m >>= f) s := by
  intro e s1 hr
  rw [M.bind_ok h] at hr
  exact hf _ _ hr

theorem Calm.err {m : R AbsSrc α} {e : RErr} {s' : St} (h : m.run s = .err e s') (he : mismatch e = false) : Calm m s := by
  intro e1 s1 hr
  rw [h] at hr
  cases hr
  exact he

theorem Calm.pure (a : α) : Calm (pure a) s := by intro e s' h; cases h

theorem Calm.panics {m : R AbsSrc α} (h : Panics m s) : Calm m s := by
  obtain ⟨p, s', h⟩ := h
  exact .err h rfl

theorem Calm.get {f : St → R AbsSrc β} (h : Calm (f s) s) : Calm (M.get >>= f) s := h

/-! ## Tokens -/

theorem pi_calm (ht : s.stack ≠ []) : Calm peekInternal s := by
  refine Calm.bind (.fatal fatal_pio) ?_
  intro o s' hr
  cases o with
  | some p => exact .pure _
  | none =>
    refine .get ?_
    have hs : s'.stack = s.stack := by
      rcases pio_ok hr with hk | ⟨rfl, _⟩
      · exact hk.stack
      · rfl
    rw [if_neg]
    · exact .fatal .syn
    · rw [isBehindTopLevel, hs]
      cases h : s.stack with
      | nil => exact absurd h ht
      | cons => simp

theorem Calm.with {m : R AbsSrc α} {Q : α → St → Prop} {E : RErr → St → Prop} (h : Calm m s) (hw : Wp m s Q E) : Wp m s Q fun e _ => mismatch e = false := by
  unfold Wp at hw ⊢
  cases hm : m.run s with
  | ok a s' => rw [hm] at hw; exact hw
  | err e s' => exact h _ _ hm

theorem Calm.of {m : R AbsSrc α} {Q : α → St → Prop} (h : Wp m s Q fun e _ => mismatch e = false) : Calm m s := fun _ _ hr => h.err hr

theorem stack_ne (h : c.isTop = false) : c.stack ≠ [] := by
  cases c <;> first | exact Bool.noConfusion h | exact List.cons_ne_nil _ _

theorem peek_calm (h : At st inp g c s) (he : c.emn = false) (ht : c.isTop = false) (ha : ∀ u l d, c ≠ .arr u l d) : Calm peek s := by
  unfold peek
  refine .get ?_
  rw [if_neg (by rw [h.emn, he]; decide)]
  refine (pi_calm (by rw [h.stack]; exact stack_ne ht)).wp (pi_wp (K := fun _ => True) h (isTop_canPeek ht)) ?_
  rintro p _ ⟨l, pos, r, rfl, hP, _⟩
  rcases notEmn_allows he hP.lead.allows with hv | ⟨_, u, l, d, hc⟩
  · intro e s' hr
    rw [mapPeeked_value hv] at hr
    cases hr
  · exact absurd hc (ha _ _ _)

theorem peek_pk (he : c.emn = false) (hv : isValue p = true) : peek.run (stp st c pos (some p) r) = .ok (typeOf p) (stp st c pos (some p) r) := by
  unfold peek
  rw [run_get, if_neg (by show ¬ c.emn = true; rw [he]; decide), M.bind_ok pi_pk, mapPeeked_value hv]

theorem hasNext_calm (h : At st inp g c s) (ht : c.isTop = false) : Calm hasNext s := by
  unfold hasNext
  refine .get ?_
  split
  · exact .fatal (by fatal)
  rw [if_neg (by rw [h.stack]; simpa using stack_ne ht)]
  refine Calm.bind (Calm.bind (pi_calm (by rw [h.stack]; exact stack_ne ht)) fun _ _ _ => .pure _) ?_
  intro o s' _
  exact .fatal (by fatal)

theorem hasNext_top_calm {d : List (Ws × Cst)} (h : At st inp g (.top d) s) : Calm hasNext s := by
  unfold hasNext
  refine .get ?_
  split
  · exact .fatal (by fatal)
  rw [if_pos (by rw [h.stack]; rfl)]
  have := fatal_pio (σ := AbsSrc)
  exact .fatal (by fatal)

theorem sev_calm {t : ValueType} {chk : Bool} (he : c.emn = false) (hv : isValue p = true) (ht : typeOf p = t) : Calm (startExpectedValueType t chk) (stp st c pos (some p) r) := by
  cases chk with
  | false => intro e s' h; rw [sev_ok he hv ht Bool.noConfusion] at h; cases h
  | true =>
    cases hd : tooDeep st c with
    | none => intro e s' h; rw [sev_ok he hv ht fun _ => hd] at h; cases h
    | some n => exact .err (sev_deep he hv ht hd) rfl

theorem skipValueStart_calm (h : At st inp g c s) (hc : CanPeek st c) (he : c.emn = false) (hp : Calm peek s) : Calm skipValueStart s := by
  unfold skipValueStart
  refine hp.wp (peek_wp (K := fun _ => True) h hc he) ?_
  rintro t _ ⟨p, l, pos, r, hv, rfl, rfl, hP, hm⟩
  have h1 := fatal_onValueEnd (σ := AbsSrc)
  have h2 := fatal_skipStr (σ := AbsSrc)
  have h3 := fun n => @fatal_finishNumber AbsSrc _ n
  have h4 := fatal_consumeNumber (.pure ()) (fatal_skipPeekedByte (σ := AbsSrc)) fatal_peekByte
  cases ht : typeOf p with
  | array =>
    unfold beginArray onContainerStart
    refine Calm.bind (Calm.bind (Calm.bind (sev_calm he hv ht) fun _ _ _ => ?_) fun _ _ _ => ?_) fun _ _ _ => ?_
    all_goals exact .fatal (by fatal)
  | object =>
    unfold beginObject onContainerStart
    refine Calm.bind (Calm.bind (Calm.bind (sev_calm he hv ht) fun _ _ _ => ?_) fun _ _ _ => ?_) fun _ _ _ => ?_
    all_goals exact .fatal (by fatal)
  | string =>
    refine Calm.bind (sev_calm he hv ht) fun _ _ _ => ?_
    exact .fatal (by fatal)
  | number =>
    unfold skipNumber
    refine Calm.bind (Calm.bind (sev_calm he hv ht) fun _ _ _ => ?_) fun _ _ _ => ?_
    · exact .fatal (.bind h4 fun _ => h3 _)
    · exact .pure _
  | boolean =>
    unfold nextBool
    refine Calm.bind (Calm.bind (sev_calm he hv ht) fun _ _ _ => ?_) fun _ _ _ => ?_
    all_goals exact .fatal (by fatal)
  | null =>
    unfold nextNull
    refine Calm.bind (Calm.bind (sev_calm he hv ht) fun _ _ _ => ?_) fun _ _ _ => ?_
    all_goals exact .fatal (by fatal)

theorem skipName_calm {up : Ctx} {lu : Lead} {d : List Mem} : Calm skipName (stp st (.obj up lu d) pos (some .nameStart) r) := by
  have h1 := fun b => @fatal_readString AbsSrc _ b
  have h2 := fatal_skipStr (σ := AbsSrc)
  have h3 := fun t => @fatal_setPathName AbsSrc t
  unfold skipName
  have hb : (beforeName : R AbsSrc Unit).run (stp st (.obj up lu d) pos (some .nameStart) r) = .ok () (nameState st up lu d (pos.over [0x22]) r) := by
    unfold beforeName
    rw [run_get, if_neg (by exact Bool.false_ne_true), if_neg (by exact Bool.false_ne_true)]
    refine (M.bind_ok (a := true) rfl).trans ?_
    rw [if_pos rfl, Pos.over_plain _ plain_quote]
    rfl
  refine .run hb ?_
  exact .fatal (by fatal <;> first | exact h1 _ | exact h3 _)

theorem endContainer_calm (hv : c.isVal = false) (ht : c.isTop = false) (ha : c.Allows p) (hp : isEnd p = true) (hw : c.Wf) : Calm endContainer (stp st c pos (some p) r) := by
  unfold endContainer
  refine .get ?_
  cases c with
  | top => exact Bool.noConfusion ht
  | val => exact Bool.noConfusion hv
  | arr u l d =>
    rw [if_pos (by rfl)]
    have : p = .arrayEnd := by rcases ha with h | h <;> first | exact h | (cases p <;> first | rfl | exact Bool.noConfusion hp | exact absurd h (by decide))
    subst this
    intro e s' hr
    rw [endArray_ok (v := .null) hw.1] at hr
    cases hr
  | obj u l d =>
    rw [if_neg (by exact Bool.false_ne_true)]
    have : p = .objectEnd := by rcases ha with rfl | rfl <;> first | rfl | cases hp
    subst this
    intro e s' hr
    rw [endObject_ok (v := .null) hw.1] at hr
    cases hr

theorem skipValueLoop_calm : ∀ {fuel n : Nat} {c : Ctx} {s : St}, Open c0 n c → At st inp g c s → CanPeek st c → (n = 0 → c.emn = false ∧ Calm peek s) → (0 < n → c.isVal = false) →
    mu s < fuel → Calm (skipValueLoop fuel n) s := by
  intro fuel
  induction fuel with
  | zero => intro n c s _ _ _ _ _ h; omega
  | succ fuel ih =>
    intro n c s ho h hc he hv hf
    rw [skipValueLoop_succ]
    have start : ∀ {c1 : Ctx} {s1 : St}, Open c0 n c1 → At st inp g c1 s1 → CanPeek st c1 → c1.emn = false → Calm peek s1 → mu s1 ≤ mu s → (n = 0 → c1 = c0) →
        Calm (do
          let d ← skipValueStart
          if n + d == 0 then pure () else skipValueLoop fuel (n + d) : R AbsSrc Unit) s1 := by
      intro c1 s1 ho1 h1 hc1 he1 hp1 hm1 _
      refine (skipValueStart_calm h1 hc1 he1 hp1).wp (skipValueStart_wp h1 hc1 he1) ?_
      rintro k s' (⟨rfl, v, l, pos, r, hsl, rfl, hN, hm'⟩ | ⟨rfl, c', pos, r, rfl, hN, hm', hval, hcc⟩)
      · cases n with
        | zero => exact .pure _
        | succ n =>
          rw [if_neg (by simp)]
          exact ih ho1.add (.n hN.toInvN) (isTop_canPeek ho1.add.notTop) (by omega) (fun _ => Ctx.add_isVal hsl) (by omega)
      · rw [if_neg (by simp)]
        have ho' : Open c0 (n + 1) c' := by
          rcases hcc with ⟨l, rfl⟩ | ⟨l, rfl⟩
          · exact .arr _ _ ho1
          · exact .obj _ _ ho1
        exact ih ho' (.n hN) (isTop_canPeek ho'.notTop) (by omega) (fun _ => hval) (by omega)
    have assoc : ∀ {s1 : St}, Calm (do
        skipNameIfExpected
        let d ← skipValueStart
        if n + d == 0 then pure () else skipValueLoop fuel (n + d) : R AbsSrc Unit) s1 →
        Calm (do
          let depth ← (do
            skipNameIfExpected
            let d ← skipValueStart
            pure (n + d) : R AbsSrc Nat)
          if depth == 0 then pure () else skipValueLoop fuel depth : R AbsSrc Unit) s1 := by
      intro s1 h1 e s' hr
      refine h1 e s' ?_
      rw [← hr]
      simp only [M.run_bind]
      cases skipNameIfExpected.run s1 with
      | err => rfl
      | ok a s' =>
        dsimp only
        cases skipValueStart.run s' with
        | err => rfl
        | ok a s' => rfl
    cases n with
    | zero =>
      obtain ⟨he, hp⟩ := he rfl
      rw [atContainerEnd_zero]
      refine .run (a := false) rfl ?_
      rw [if_neg (by exact Bool.false_ne_true)]
      refine assoc ?_
      refine .run (a := ()) (s' := s) ?_ ?_
      · unfold skipNameIfExpected
        rw [run_get, h.emn, if_neg (by rw [he]; decide)]
        rfl
      · cases ho
        exact start .z h hc he hp (Nat.le_refl _) fun _ => rfl
    | succ n =>
      have hval := hv (by omega)
      have htop := ho.notTop
      rw [atContainerEnd_succ]
      refine Calm.wp (Calm.bind (hasNext_calm h htop) fun _ _ _ => .pure _) (Q := fun b s' => HPost st inp g c s (!b) s')
        ((hasNext_wp (K := fun _ => True) h hval htop).bind' fun b s' hb => Wp.pure (by rw [Bool.not_not]; exact hb)) ?_
      rintro b _ ⟨p, l, pos, r, hb, rfl, hP, hm⟩
      have hb : b = isEnd p := by simpa using hb
      subst hb
      have hallow := hP.lead.allows
      by_cases hp : isEnd p = true
      · rw [if_pos hp]
        refine Calm.wp (Calm.bind (endContainer_calm hval htop hallow hp hP.wf) fun _ _ _ => .pure _)
          ((endContainer_wp (.p hP) hval htop).bind' (Q := fun k s' => k = n + 1 - 1 ∧ ∃ u l' v pos' r', ((∃ d, c = .arr u l' d) ∨ ∃ d, c = .obj u l' d) ∧ u.Slot l' ∧ s' = stp st (u.add l' v) pos' none r' ∧
            InvX st inp g (u.add l' v) pos' r' ∧ mu s' < mu (stp st c pos (some p) r)) fun _ s' hq => Wp.pure ⟨rfl, hq⟩) ?_
        rintro k _ ⟨hk, u, lu, v, pos', r', hcc, hsl, rfl, hN, hm'⟩
        rw [Nat.add_sub_cancel] at hk
        rw [hk]
        have hu : Open c0 n u := by
          rcases hcc with ⟨d, rfl⟩ | ⟨d, rfl⟩ <;> (cases ho; assumption)
        cases n with
        | zero => rw [if_pos (by rfl)]; exact .pure _
        | succ n =>
          rw [if_neg (by simp)]
          exact ih hu.add (.n hN.toInvN) (isTop_canPeek hu.add.notTop) (by omega) (fun _ => Ctx.add_isVal hsl) (by omega)
      · rw [if_neg hp]
        refine assoc ?_
        cases c with
        | top => exact Bool.noConfusion htop
        | val => exact Bool.noConfusion hval
        | arr u lu d =>
          refine .run (a := ()) (s' := stp st (.arr u lu d) pos (some p) r) rfl ?_
          have hpv : isValue p = true := by
            rcases hallow with h | rfl
            · exact h
            · exact absurd rfl hp
          exact start ho (.p hP) hc rfl (fun e s' h => by rw [peek_pk rfl hpv] at h; cases h) hm (by omega)
        | obj u lu d =>
          have hpn : p = .nameStart := by
            rcases hallow with rfl | rfl
            · rfl
            · exact absurd rfl hp
          subst hpn
          have hE : (skipNameIfExpected : R AbsSrc Unit).run (stp st (.obj u lu d) pos (some .nameStart) r) = skipName.run (stp st (.obj u lu d) pos (some .nameStart) r) := rfl
          have hA : At st inp g (.obj u lu d) (stp st (.obj u lu d) pos (some .nameStart) r) := .p hP
          have hW := skipName_wp (K := fun _ => True) hA
          refine Calm.wp (m := skipNameIfExpected) (fun e s' hr => skipName_calm e s' (hE ▸ hr)) (Q := _) (Wp.congr hE hW) ?_
          rintro _ _ ⟨x, hx, sp, pos2, r2, rfl, hN2, hm2⟩
          have ho2 : Open c0 (n + 1) (.val u lu d sp x) := by cases ho; exact .val _ _ _ _ (by assumption)
          exact start ho2 (.n hN2) (isTop_canPeek rfl) rfl (peek_calm (.n hN2) rfl rfl nofun) (by omega) (by omega)

theorem skipValue_calm (h : At st inp g c s) (hp : Calm peek s) : Calm skipValue s := by
  unfold skipValue
  refine .get ?_
  split
  · exact .fatal (by fatal)
  rename_i he
  rw [h.emn] at he
  by_cases hc : CanPeek st c
  · exact skipValueLoop_calm .z h hc (fun _ => ⟨eq_false_of_ne_true he, hp⟩) (by omega) (fuel_mu h)
  · have := skipValue_panics h.looks fun h => hc h.2
    refine .panics ?_
    unfold skipValue Panics at this
    rw [run_get, h.emn, if_neg he] at this
    exact this

/-! ## Finishing arrays and objects -/

abbrev CE : RErr → St → Prop := fun e _ => mismatch e = false

theorem skipItems_calm {up : Ctx} {lu : Lead} : ∀ {fuel : Nat} {d : List (Sep × Cst)} {s : St}, At st inp g (.arr up lu d) s → mu s < fuel →
    Wp (skipItems fuel) s (fun _ s' => ∃ d' pos r, s' = stp st (.arr up lu d') pos (some .arrayEnd) r ∧ up.Slot lu) CE := by
  intro fuel
  induction fuel with
  | zero => intro d s _ h; omega
  | succ fuel ih =>
    intro d s h hf
    rw [skipItems_succ]
    refine Wp.bind' ((hasNext_calm h rfl).with (hasNext_wp (K := fun _ => True) h rfl rfl)) ?_
    rintro b _ ⟨p, l, pos, r, rfl, rfl, hP, hm⟩
    have hallow := hP.lead.allows
    refine Wp.ite (fun hb => ?_) fun hb => ?_
    · have hpv : isValue p = true := by
        rcases hallow with h | rfl
        · exact h
        · cases hb
      refine Wp.bind' ((skipValue_calm (.p hP) (fun e s' h => by rw [peek_pk rfl hpv] at h; cases h)).with (skipValue_wp (.p hP) (isTop_canPeek rfl) rfl)) ?_
      rintro _ _ ⟨v, l', pos', r', hsl, rfl, hN, hm'⟩
      cases l' with
      | ws => exact hsl.elim
      | colon => exact hsl.elim
      | sep sp =>
        exact ih (.n hN.toInvN) (by simp only [Ctx.add] at hm' ⊢; omega)
    · have : p = .arrayEnd := by
        rcases hallow with h | h
        · cases p <;> first | rfl | exact absurd rfl hb | exact absurd h (by decide)
        · exact h
      subst this
      exact Wp.pure ⟨d, pos, r, rfl, hP.wf.1⟩

theorem skipMembers_calm {up : Ctx} {lu : Lead} : ∀ {fuel : Nat} {d : List Mem} {s : St}, At st inp g (.obj up lu d) s → mu s < fuel →
    Wp (skipMembers fuel) s (fun _ s' => ∃ d' pos r, s' = stp st (.obj up lu d') pos (some .objectEnd) r ∧ up.Slot lu) CE := by
  intro fuel
  induction fuel with
  | zero => intro d s _ h; omega
  | succ fuel ih =>
    intro d s h hf
    rw [skipMembers_succ]
    refine Wp.bind' ((hasNext_calm h rfl).with (hasNext_wp (K := fun _ => True) h rfl rfl)) ?_
    rintro b _ ⟨p, l, pos, r, rfl, rfl, hP, hm⟩
    rcases hP.lead.allows with rfl | rfl
    · rw [if_pos (by rfl)]
      refine Wp.bind' (skipName_calm.with (skipName_wp (K := fun _ => True) (.p hP))) ?_
      rintro _ _ ⟨x, hx, sp, pos2, r2, rfl, hN2, hm2⟩
      refine Wp.bind' ((skipValue_calm (.n hN2) (peek_calm (.n hN2) rfl rfl nofun)).with (skipValue_wp (.n hN2) (isTop_canPeek rfl) rfl)) ?_
      rintro _ _ ⟨v, l', pos', r', hsl, rfl, hN, hm'⟩
      cases l' with
      | ws => exact hsl.elim
      | sep => exact hsl.elim
      | colon w1 w2 =>
        exact ih (.n hN.toInvN) (by simp only [Ctx.add] at hm' ⊢; omega)
    · rw [if_neg (by exact Bool.false_ne_true)]
      exact Wp.pure ⟨d, pos, r, rfl, hP.wf.1⟩

theorem finishArray_calm {up : Ctx} {lu : Lead} {d : List (Sep × Cst)} (h : At st inp g (.arr up lu d) s) : Calm finishArray s := by
  unfold finishArray
  refine .of (Q := fun _ _ => True) (Wp.get (Wp.bind' (skipItems_calm h (fuel_mu h)) ?_))
  rintro _ _ ⟨d', pos, r, rfl, hs⟩
  exact Wp.of_ok (endArray_ok (v := .null) hs) trivial

theorem finishObject_calm {up : Ctx} {lu : Lead} {d : List Mem} (h : At st inp g (.obj up lu d) s) : Calm finishObject s := by
  unfold finishObject
  refine .of (Q := fun _ _ => True) (Wp.get (Wp.bind' (skipMembers_calm h (fuel_mu h)) ?_))
  rintro _ _ ⟨d', pos, r, rfl, hs⟩
  exact Wp.of_ok (endObject_ok (v := .null) hs) trivial

theorem Panics.ce {m : R AbsSrc α} {Q : α → St → Prop} (h : Panics m s) : Wp m s Q CE := h.wp fun _ _ => rfl

theorem skipItems_other : ∀ {fuel : Nat} {c : Ctx} {s : St}, At st inp g c s → (∀ u l d, c ≠ .arr u l d) → mu s < fuel →
    Wp (skipItems fuel) s (fun _ s' => ∃ c', At st inp g c' s' ∧ ∀ u l d, c' ≠ .arr u l d) CE := by
  intro fuel
  induction fuel with
  | zero => intro c s _ _ h; omega
  | succ fuel ih =>
    intro c s h hc hf
    rw [skipItems_succ]
    by_cases hcan : c.mode.canHasNext st.allowMultipleTopLevel = true
    · cases c with
      | arr => exact absurd rfl (hc _ _ _)
      | val => exact Bool.noConfusion hcan
      | obj u lu d =>
        refine Wp.bind' ((hasNext_calm h rfl).with (hasNext_wp (K := fun _ => True) h rfl rfl)) ?_
        rintro b _ ⟨p, l, pos, r, rfl, rfl, hP, hm⟩
        refine Wp.ite (fun _ => ?_) fun _ => Wp.pure ⟨_, .p hP, nofun⟩
        exact ((skipValue_panics (At.looks (.p hP)) fun h => Bool.noConfusion h.1).bind).ce
      | top d =>
        have hd : d ≠ [] ∧ st.allowMultipleTopLevel = true := by
          simpa [Mode.canHasNext, Ctx.mode, Ctx.frames, Ctx.root] using hcan
        refine Wp.bind' ((hasNext_top_calm h).with (hasNext_top_wp (K := fun _ => True) h hd.1 hd.2)) ?_
        rintro b _ (⟨rfl, p, l, pos, r, _, rfl, hP, hm⟩ | ⟨rfl, pos, r, pos', rfl, _, rfl, hN⟩)
        · rw [if_pos rfl]
          have hpv : isValue p = true := hP.lead.allows
          refine Wp.bind' ((skipValue_calm (.p hP) (fun e s' h => by rw [peek_pk rfl hpv] at h; cases h)).with (skipValue_wp (.p hP) (fun _ _ => .inr hd.2) rfl)) ?_
          rintro _ _ ⟨v, l', pos', r', hsl, rfl, hN, hm'⟩
          refine ih (.n hN.toInvN) ?_ (by omega)
          cases l' with
          | ws => exact nofun
          | sep => exact hsl.elim
          | colon => exact hsl.elim
        · rw [if_neg (by decide)]
          exact Wp.pure ⟨_, .n hN, nofun⟩
    · exact ((hasNext_panics h.looks (by simpa using hcan)).bind).ce

theorem finishArray_other (h : At st inp g c s) (hc : ∀ u l d, c ≠ .arr u l d) : Wp finishArray s (fun _ _ => False) CE := by
  unfold finishArray
  refine Wp.get (Wp.bind' (skipItems_other h hc (fuel_mu h)) ?_)
  rintro _ s' ⟨c', h', hc'⟩
  exact (endArray_panics h'.looks hc').ce

theorem skipMembers_other : ∀ {fuel : Nat}, At st inp g c s → c.emn = false → mu s < fuel →
    Wp (skipMembers fuel) s (fun _ s' => ∃ c', At st inp g c' s' ∧ c'.emn = false) CE := by
  intro fuel h hc hf
  cases fuel with
  | zero => omega
  | succ fuel =>
    rw [skipMembers_succ]
    by_cases hcan : c.mode.canHasNext st.allowMultipleTopLevel = true
    · cases c with
      | obj => exact Bool.noConfusion hc
      | val => exact Bool.noConfusion hcan
      | arr u lu d =>
        refine Wp.bind' ((hasNext_calm h rfl).with (hasNext_wp (K := fun _ => True) h rfl rfl)) ?_
        rintro b _ ⟨p, l, pos, r, rfl, rfl, hP, hm⟩
        refine Wp.ite (fun _ => ?_) fun _ => Wp.pure ⟨_, .p hP, rfl⟩
        exact (Panics.bind (Panics.bind (beforeName_panics (At.looks (.p hP)) rfl))).ce
      | top d =>
        have hd : d ≠ [] ∧ st.allowMultipleTopLevel = true := by
          simpa [Mode.canHasNext, Ctx.mode, Ctx.frames, Ctx.root] using hcan
        refine Wp.bind' ((hasNext_top_calm h).with (hasNext_top_wp (K := fun _ => True) h hd.1 hd.2)) ?_
        rintro b _ (⟨rfl, p, l, pos, r, _, rfl, hP, hm⟩ | ⟨rfl, pos, r, pos', rfl, _, rfl, hN⟩)
        · rw [if_pos rfl]
          exact (Panics.bind (Panics.bind (beforeName_panics (At.looks (.p hP)) rfl))).ce
        · rw [if_neg (by decide)]
          exact Wp.pure ⟨_, .n hN, rfl⟩
    · exact ((hasNext_panics h.looks (by simpa using hcan)).bind).ce

theorem finishObject_other (h : At st inp g c s) (hc : c.emn = false) : Wp finishObject s (fun _ _ => False) CE := by
  unfold finishObject
  refine Wp.get (Wp.bind' (skipMembers_other h hc (fuel_mu h)) ?_)
  rintro _ s' ⟨c', h', hc'⟩
  exact (endObject_panics h'.looks hc').ce

/-! ## `skip_to_top_level` and `seek_back` -/

theorem skipToTopLevelLoop_calm : ∀ {n : Nat} {c : Ctx} {s : St}, At st inp g c s → c.isVal = false → c.stack.length = n → Calm (skipToTopLevelLoop n) s := by
  intro n
  induction n with
  | zero =>
    intro c s h hv hn
    refine .get ?_
    rw [if_pos (by rw [h.stack]; simpa using hn)]
    exact .pure _
  | succ n ih =>
    intro c s h hv hn
    rw [skipToTopLevelLoop_succ]
    refine .get ?_
    rw [h.stack]
    cases c with
    | top => exact absurd hn (by simp [Ctx.stack])
    | val => exact Bool.noConfusion hv
    | arr u lu d =>
      refine (finishArray_calm h).wp (finishArray_wp h) ?_
      rintro _ _ ⟨d', cl, hsl, pos, r, rfl, hN, hm⟩
      exact ih (.n hN.toInvN) (Ctx.add_isVal hsl) (by rw [Ctx.add_stack]; simpa [Ctx.stack] using hn)
    | obj u lu d =>
      refine (finishObject_calm h).wp (finishObject_wp h) ?_
      rintro _ _ ⟨d', cl, hsl, pos, r, rfl, hN, hm⟩
      exact ih (.n hN.toInvN) (Ctx.add_isVal hsl) (by rw [Ctx.add_stack]; simpa [Ctx.stack] using hn)

theorem skipToTopLevel_calm (h : At st inp g c s) : Calm skipToTopLevel s := by
  unfold skipToTopLevel
  refine .get ?_
  rw [if_neg (by rw [h.sra]; decide)]
  cases c with
  | val u lu d sp x =>
    rw [if_pos (by cases h <;> rfl)]
    refine (skipValue_calm h (peek_calm h rfl rfl nofun)).wp (skipValue_wp h (isTop_canPeek rfl) rfl) ?_
    rintro _ s' ⟨v, l, pos, r, hsl, rfl, hN, hm⟩
    cases l with
    | ws => exact hsl.elim
    | sep => exact hsl.elim
    | colon w1 w2 =>
      rw [h.stack]
      exact skipToTopLevelLoop_calm (.n hN.toInvN) rfl rfl
  | top d =>
    rw [if_neg (by cases h <;> exact Bool.false_ne_true)]
    refine .run (a := ()) rfl ?_
    rw [h.stack]
    exact skipToTopLevelLoop_calm h rfl rfl
  | arr u lu d =>
    rw [if_neg (by cases h <;> exact Bool.false_ne_true)]
    refine .run (a := ()) rfl ?_
    rw [h.stack]
    exact skipToTopLevelLoop_calm h rfl rfl
  | obj u lu d =>
    rw [if_neg (by cases h <;> exact Bool.false_ne_true)]
    refine .run (a := ()) rfl ?_
    rw [h.stack]
    exact skipToTopLevelLoop_calm h rfl rfl

theorem seekBackLoop_calm : ∀ {ps : List PathPiece} {c : Ctx} {s : St}, At st inp g c s → Calm (seekBackLoop ps) s := by
  intro ps
  induction ps with
  | nil => intro c s h; exact .pure _
  | cons q ps ih =>
    intro c s h
    cases q with
    | arrayItem i =>
      by_cases hc : c.mode.canEndArray = true
      · obtain ⟨u, lu, d, rfl⟩ := canEndArray_iff.1 hc
        refine (finishArray_calm h).wp (finishArray_wp h) ?_
        rintro _ s1 ⟨d', cl, hsl, pos, r, rfl, hN, _⟩
        exact ih (.n hN.toInvN)
      · have hw := finishArray_other h fun u l d he => hc (canEndArray_iff.2 ⟨u, l, d, he⟩)
        exact (Calm.of hw).wp hw fun _ _ h => h.elim
    | objectMember n =>
      by_cases hc : c.mode.canName = true
      · obtain ⟨u, lu, d, rfl⟩ := obj_of_emn (canName_iff ▸ hc)
        refine (finishObject_calm h).wp (finishObject_wp h) ?_
        rintro _ s1 ⟨d', cl, hsl, pos, r, rfl, hN, _⟩
        exact ih (.n hN.toInvN)
      · have hw := finishObject_other h (by rw [← canName_iff]; exact eq_false_of_ne_true hc)
        exact (Calm.of hw).wp hw fun _ _ h => h.elim

/-! ## All inputs -/

/-- errors do not depend on how the input ends, except for errors of the underlying reader -/
theorem lift_err {op : Op} {e : RErr} {s1 : St} (h : (runOp op).run s = .err e s1) (hm : mismatch e = true) : ∃ s2, (runOp op).run (noTerm s) = .err e s2 := by
  cases ht : s.src.term with
  | none => exact ⟨s1, by rw [noTerm_of_none ht]; exact h⟩
  | some k =>
    have hr := runOpT op _ _ (RRel_of_noTerm ht)
    unfold RelAt at hr
    have hx : ∀ {e}, AbsSrc.TX k [] e → mismatch e = false := by
      rintro e (⟨l, rfl⟩ | ⟨h, _⟩)
      · rfl
      · exact absurd rfl h
    rw [h] at hr
    cases h2 : (runOp op).run (noTerm s) with
    | ok b t2 => rw [h2] at hr; rw [hx hr] at hm; cases hm
    | err e2 t2 =>
      rw [h2] at hr
      rcases hr with hr | ⟨rfl, hi⟩
      · rw [hx hr] at hm; cases hm
      · exact ⟨t2, rfl⟩

theorem lift_ok {op : Op} {o : Out} {s1 : St} (h : (runOp op).run s = .ok o s1) : ∃ s2, (runOp op).run (noTerm s) = .ok o s2 := by
  cases ht : s.src.term with
  | none => exact ⟨s1, by rw [noTerm_of_none ht]; exact h⟩
  | some k =>
    have hr := runOpT op _ _ (RRel_of_noTerm ht)
    unfold RelAt at hr
    rw [h] at hr
    cases h2 : (runOp op).run (noTerm s) with
    | ok b t2 => rw [h2] at hr; obtain ⟨rfl, _⟩ := hr; exact ⟨_, rfl⟩
    | err e2 t2 => rw [h2] at hr; exact hr.elim

theorem calm_unit {m : R AbsSrc Unit} (h : Calm m s) : Calm (unitOut m) s := h.bind fun _ _ _ => .pure _

/-- `skip_to_top_level` and `seek_back` do not fail with an error about the type or the structure -/
theorem calm_back {op : Op} {m : Mode} (hI : InvT st inp g m s) (ho : op = .skipToTopLevel ∨ ∃ path, op = .seekBack path) : Calm (runOp op) s := by
  intro e s1 h
  cases hm : mismatch e with
  | false => rfl
  | true =>
    obtain ⟨s2, h2⟩ := lift_err h hm
    have key : Calm (runOp op) (noTerm s) := by
      unfold InvT at hI
      generalize noTerm s = t at *
      cases hI with
      | «at» hA =>
        rcases ho with rfl | ⟨path, rfl⟩
        · exact calm_unit (skipToTopLevel_calm hA)
        · exact calm_unit (seekBackLoop_calm hA)
      | @active c l pos r x y h1 h2 h3 h4 =>
        rcases ho with rfl | ⟨path, rfl⟩
        · exact .panics (active_panics (b := true) (m := Mode.init) rfl rfl)
        · cases hp : path.reverse with
          | nil =>
            show Calm (unitOut (seekBackLoop path.reverse)) _
            rw [hp]
            exact calm_unit (.pure _)
          | cons q ps =>
            cases ha : ({ c.mode with str := true } : Mode).allowed st.allowMultipleTopLevel (.seekBack path) with
            | false => exact .panics (active_panics rfl ha)
            | true =>
              have : Mode.canSeekBack path.reverse { c.mode with str := true } = true := ha
              rw [hp] at this
              cases q <;> exact Bool.noConfusion this
    rw [key _ _ h2] at hm
    cases hm

/-- `skip_value` fails with an error about the type or the structure only if there is no value to be skipped -/
theorem calm_skipValue {m : Mode} {e : RErr} {s1 : St} (hI : InvT st inp g m s) (h : (runOp .skipValue).run s = .err e s1) (hm : mismatch e = true) :
    (runOp .peek).run s = .err e s1 := by
  cases hp : (peek : R AbsSrc _).run s with
  | err e2 s2 =>
    have h1 : (runOp .peek).run s = .err e2 s2 := M.bind_err hp
    rw [h1]
    by_cases he : s.expectsMemberName = true
    · have h3 : (runOp .skipValue).run s = .err (.panic (.usage .valueWhenExpectingName)) s := by
        refine M.bind_err ?_
        unfold Reader.skipValue
        rw [run_get, if_pos he]
        rfl
      rw [h3] at h
      cases h
      cases hm
    · have h3 : (runOp .skipValue).run s = .err e2 s2 := by
        refine M.bind_err ?_
        unfold Reader.skipValue
        rw [run_get, if_neg he]
        exact skipValueLoop_zero_eq _ (eq_false_of_ne_true he) hp
      rw [h3] at h
      exact h
  | ok t s2 =>
    exfalso
    obtain ⟨s3, h3⟩ := lift_err h hm
    have key : Calm (runOp .skipValue) (noTerm s) := by
      have hpk : Calm peek (noTerm s) := by
        intro e1 s4 h4
        obtain ⟨s5, h5⟩ := lift_ok (op := .peek) (show _ = Res.ok (.type t) s2 from M.bind_ok hp)
        rw [show (runOp .peek).run (noTerm s) = .err e1 s4 from M.bind_err h4] at h5
        cases h5
      unfold InvT at hI
      generalize noTerm s = t at *
      cases hI with
      | «at» hA => exact calm_unit (skipValue_calm hA hpk)
      | active x y h1 h2 h3 h4 => exact .panics (active_panics (b := true) (m := Mode.init) rfl rfl)
    rw [key _ _ h3] at hm
    cases hm

end
end Verif.Abs
