import Verif.Proofs.Abs.Usage
import Verif.Proofs.Term
/-! # Sequences of calls -/

namespace Verif.Abs
open Reader Utf8 Json Usage Sim

variable {st : Settings} {inp : Bytes} {g : Prop} {c : Ctx} {s : St} {m : Mode} {op : Op}

/-- the same state for an input which ends without error of the underlying reader -/
def noTerm (s : St) : St := { s with src := { s.src with term := none } }

theorem noTerm_of_none (h : s.src.term = none) : noTerm s = s := by
  unfold noTerm
  rw [← h]

theorem RRel_of_noTerm {k : Nat} {s : St} (h : s.src.term = some k) :
    (AbsSrc.truncSim k [] none s.settings).RRel (.idle false) s (noTerm s) := by
  obtain ⟨⟨r, t, acc⟩, pk, e, mn, stk, sa, l, col, b, pa, se⟩ := s
  cases h
  refine RRel.mk (S := AbsSrc.truncSim k [] none se) ?_ ..
  have := AbsSrc.TRel.mk (k := k) (more := []) (t := none) (p := .idle false) r acc nofun
  rw [List.append_nil] at this
  exact this

theorem noTerm_of_RRel {k : Nat} {se : Settings} {s s2 : St} (h : (AbsSrc.truncSim k [] none se).RRel (.idle false) s s2) : s2 = noTerm s ∧ s.src.term = some k := by
  obtain ⟨hr, pk, e, m, stk, sa, l, col, b, pa⟩ := h
  obtain ⟨r, acc, h⟩ := hr
  rw [List.append_nil]
  exact ⟨rfl, rfl⟩

/-- errors for inputs which may end with an error -/
def TE (E : RErr → St → Prop) (e : RErr) (s : St) : Prop := (∃ k l, e = .io (.source k) l) ∨ ∃ s', E e s' ∧ (e.nonfatal → s' = noTerm s)

theorem lift_wp {Q : Out → St → Prop} {E : RErr → St → Prop} (h : Wp (runOp op) (noTerm s) Q E)
    (hQ : ∀ o s', Q o s' → Q o (noTerm s')) (hE : ∀ e s', E e s' → e.nonfatal → s'.src.term = none) :
    Wp (runOp op) s (fun o s' => Q o (noTerm s')) (TE E) := by
  cases ht : s.src.term with
  | none =>
    rw [noTerm_of_none ht] at h
    exact h.mono hQ fun e s' h => .inr ⟨s', h, fun hf => (noTerm_of_none (hE e s' h hf)).symm⟩
  | some k =>
    have hr := runOpT op _ _ (RRel_of_noTerm ht)
    unfold RelAt at hr
    unfold Wp at *
    cases h1 : (runOp op).run s with
    | ok a t1 =>
      cases h2 : (runOp op).run (noTerm s) with
      | ok b t2 =>
        rw [h1, h2] at hr
        rw [h2] at h
        obtain ⟨rfl, hr⟩ := hr
        rw [(noTerm_of_RRel hr).1] at h
        exact h
      | err e t2 => rw [h1, h2] at hr; exact hr.elim
    | err e1 t1 =>
      have hx : ∀ {e}, AbsSrc.TX k [] e → TE E e t1 := by
        rintro e (⟨l, rfl⟩ | ⟨h, _⟩)
        · exact .inl ⟨k, l, rfl⟩
        · exact absurd rfl h
      cases h2 : (runOp op).run (noTerm s) with
      | ok b t2 => rw [h1, h2] at hr; exact hx hr
      | err e2 t2 =>
        rw [h1, h2] at hr
        rw [h2] at h
        rcases hr with hr | ⟨rfl, hi⟩
        · exact hx hr
        · exact .inr ⟨t2, h, fun hf => (noTerm_of_RRel (hi.1 hf)).1⟩

theorem At.term (h : At st inp g c s) : s.src.term = none := by cases h <;> rfl
theorem Inv.term (h : Inv st inp g m s) : s.src.term = none := by
  cases h with
  | «at» h => exact h.term
  | active => rfl

theorem EOk.term {K : Mode → Prop} {e : RErr} (h : EOk st inp g K e s) (hf : e.nonfatal) : s.src.term = none := by
  cases e with
  | «syntax» => exact hf.elim
  | io => exact hf.elim
  | panic => exact hf.elim
  | outOfFuel => exact hf.elim
  | unexpectedValueType => obtain ⟨c, _, h⟩ := h; exact h.term
  | unexpectedStructure => obtain ⟨c, _, h⟩ := h; exact h.term
  | maxNestingDepthExceeded => obtain ⟨c, _, h⟩ := h; exact h.term
  | unsupportedNumberValue => obtain ⟨c, _, h⟩ := h; exact h.term

/-- invariant for inputs which may end with an error -/
def InvT (st : Settings) (inp : Bytes) (g : Prop) (m : Mode) (s : St) : Prop := Inv st inp g m (noTerm s)

/-- error of a call: an error of the input, or an error after which the reader can be used if it is not fatal; usage panics only for calls which are not allowed -/
inductive Err (st : Settings) (inp : Bytes) (g : Prop) (m : Mode) (op : Op) : RErr → St → Prop
  | src {k : Nat} {l : Position} {s : St} : Err st inp g m op (.io (.source k) l) s
  | panic {p : UsagePanic} {s : St} (h : m.allowed st.allowMultipleTopLevel op = false) : Err st inp g m op (.panic (.usage p)) s
  | fatal {e : RErr} {s : St} (h : e.fatal = true) (hp : ∀ p, e ≠ .panic p) (hf : e ≠ .outOfFuel) (ha : m.allowed st.allowMultipleTopLevel op = true ∨ ∃ p, op = .seekBack p) : Err st inp g m op e s
  | nonfatal {e : RErr} {s : St} (m' : Mode) (h : e.fatal = false) (hm : op ≠ .consumeTrailingWhitespace → InvT st inp (g ∧ ∀ t l, e ≠ .unsupportedNumberValue t l) m' s)
      (hc : Mode.composite op = false → m' = m) (ha : m.allowed st.allowMultipleTopLevel op = true ∨ ∃ p, op = .seekBack p) : Err st inp g m op e s

theorem At.weaken {g' : Prop} (h : At st inp g c s) (hg : g' → g) : At st inp g' c s := by
  cases h with
  | n h => exact .n ⟨h.wf, h.depth, h.bare, fun h' => h.good (hg h')⟩
  | p h => exact .p ⟨h.wf, h.depth, h.lead, h.follow, fun h' => h.good (hg h')⟩

theorem Err.of_EOk {e : RErr} (ha : m.allowed st.allowMultipleTopLevel op = true ∨ ∃ p, op = .seekBack p)
    (h : TE (EOk st inp g fun m' => Mode.composite op = false → m' = m) e s) : Err st inp g m op e s := by
  rcases h with ⟨k, l, rfl⟩ | ⟨s', h, hs⟩
  · exact .src
  cases e with
  | «syntax» => exact .fatal rfl nofun nofun ha
  | io k => cases k <;> first | exact .src | exact .fatal rfl nofun nofun ha
  | panic => exact h.elim
  | outOfFuel => exact h.elim
  | unexpectedValueType =>
    cases hs trivial
    obtain ⟨c, hK, h⟩ := h
    exact .nonfatal c.mode rfl (fun _ => .at (h.weaken fun h => h.1)) hK ha
  | unexpectedStructure =>
    cases hs trivial
    obtain ⟨c, hK, h⟩ := h
    exact .nonfatal c.mode rfl (fun _ => .at (h.weaken fun h => h.1)) hK ha
  | maxNestingDepthExceeded =>
    cases hs trivial
    obtain ⟨c, hK, h⟩ := h
    exact .nonfatal c.mode rfl (fun _ => .at (h.weaken fun h => h.1)) hK ha
  | unsupportedNumberValue =>
    cases hs trivial
    obtain ⟨c, hK, h⟩ := h
    exact .nonfatal c.mode rfl (fun _ => .at (h.weaken fun h => h.2 _ _ rfl)) hK ha

theorem lift_looks (h : Looks st c (noTerm s)) : Looks st c s := ⟨h.emn, h.stack, h.isEmpty, h.settings, h.sra, h.peeked⟩

/-- the effect of any call except for `consume_trailing_whitespace` -/
theorem call_wp (h : InvT st inp g m s) (hne : op ≠ .consumeTrailingWhitespace) :
    Wp (runOp op) s (fun o s' => m.allowed st.allowMultipleTopLevel op = true ∧ InvT st inp g (m.next o op) s') (Err st inp g m op) := by
  generalize hs : noTerm s = t at h
  unfold InvT at h
  rw [hs] at h
  cases h with
  | @«at» c _ h =>
    cases ha : c.mode.allowed st.allowMultipleTopLevel op with
    | true =>
      refine (lift_wp (hs ▸ allowed_wp h ha hne) (fun _ _ h => (noTerm_of_none h.term).symm ▸ h) fun _ _ h hf => h.term hf).mono ?_ ?_
      · exact fun o s' h => ⟨rfl, h⟩
      · exact fun e s' h => Err.of_EOk (.inl ha) h
    | false =>
      by_cases hb : ∃ p, op = .seekBack p
      · obtain ⟨path, rfl⟩ := hb
        have hw : Wp (runOp (.seekBack path)) (noTerm s) (fun _ _ => False) (EU st inp g true) := by
          rw [hs]
          refine Wp.bind' (P := fun _ _ => False) ((seekBackLoop_any h).mono ?_ ?_) fun _ _ h => h.elim
          · rintro _ s' ⟨h1, _⟩
            rw [show Mode.canSeekBack path.reverse c.mode = false from ha] at h1
            exact Bool.noConfusion h1
          · rw [show Mode.canSeekBack path.reverse c.mode = false from ha]
            exact fun _ _ h => h
        refine (lift_wp hw (fun _ _ h => h.elim) ?_).mono (fun _ _ h => h.elim) ?_
        · rintro e s' (h | ⟨_, p, rfl⟩) hf
          · exact h.term hf
          · exact hf.elim
        · rintro e s' (⟨k, l, rfl⟩ | ⟨s'', h | ⟨_, p, rfl⟩, hf⟩)
          · exact .src
          · exact Err.of_EOk (.inr ⟨path, rfl⟩) (.inr ⟨s'', h.mono fun _ _ => nofun, hf⟩)
          · exact .panic ha
      · refine (not_allowed_panics (lift_looks (hs ▸ h.looks)) ha fun p hp => hb ⟨p, hp⟩).wp ?_
        exact fun p s' => .panic ha
  | @active c l pos r x y h1 h2 h3 h4 =>
    cases ha : ({ c.mode with str := true } : Mode).allowed st.allowMultipleTopLevel op with
    | false =>
      refine (active_panics (by exact congrArg RState.stringReaderActive hs) ha).wp ?_
      exact fun p s' => .panic ha
    | true =>
      have hI : InvT st inp g { c.mode with str := true } s := by
        unfold InvT; rw [hs]; exact .active x y h1 h2 h3 h4
      cases op <;> first | exact Bool.noConfusion ha | skip
      · rename_i path
        cases hp : path.reverse with
        | nil =>
          rw [List.reverse_eq_nil_iff] at hp
          subst hp
          exact Wp.of_ok (a := .unit) (s' := s) rfl ⟨rfl, hI⟩
        | cons q ps =>
          have : Mode.canSeekBack path.reverse { c.mode with str := true } = true := ha
          rw [hp] at this
          cases q <;> exact Bool.noConfusion this
      · exact Wp.get (Wp.pure ⟨rfl, hI⟩)

theorem trailing_wp (h : InvT st inp g m s) :
    Wp (runOp .consumeTrailingWhitespace) s (fun o _ => o = .unit ∧ m.allowed st.allowMultipleTopLevel .consumeTrailingWhitespace = true ∧ ∃ (c : Ctx) (t : TrailWs), m = c.mode ∧ At st inp g c (noTerm s) ∧ t.Ok st.allowComments ∧
      s.src.rest = t.bytes ∧ (g → s.peeked = none → c.Ok st ∧ ∃ t : TrailWs, t.Ok st.allowComments ∧ inp = c.bytes ++ t.bytes)) (Err st inp g m .consumeTrailingWhitespace) := by
  generalize hs : noTerm s = t at h
  unfold InvT at h
  rw [hs] at h
  cases h with
  | @«at» c _ h =>
    cases ha : c.mode.allowed st.allowMultipleTopLevel .consumeTrailingWhitespace with
    | true =>
      have hw := consumeTrailing_wp h ha
      rw [← hs] at hw
      refine (lift_wp hw (fun _ _ h => h) ?_).mono ?_ ?_
      · intro e s' h hf
        cases e <;> first | exact hf.elim | exact h.elim
      · rintro o s' ⟨rfl, d, rfl, hd, t, ht, hr, hg⟩
        refine ⟨rfl, rfl, _, t, rfl, hs ▸ h, ht, ?_, ?_⟩
        · exact hr
        · exact hg
      · rintro e s' (⟨k, l, rfl⟩ | ⟨s'', h, _⟩)
        · exact .src
        · refine .fatal ?_ ?_ ?_ (.inl ha)
          · cases e <;> first | rfl | exact h.elim
          · rintro p rfl; exact h
          · rintro rfl; exact h
    | false =>
      refine (not_allowed_panics (lift_looks (hs ▸ h.looks)) ha nofun).wp ?_
      exact fun p s' => .panic ha
  | @active c l pos r x y h1 h2 h3 h4 =>
    have ha : ({ c.mode with str := true } : Mode).allowed st.allowMultipleTopLevel .consumeTrailingWhitespace = false := rfl
    refine (active_panics (by exact congrArg RState.stringReaderActive hs) ha).wp ?_
    exact fun p s' => .panic ha

/-! ## Results of sequences of calls -/

theorem initial_invN (st : Settings) (bytes : Bytes) : InvN st bytes True (.top []) (posOf []) bytes :=
  ⟨trivial, fun _ _ => Nat.zero_le _, (fun h => by cases h), fun _ => ⟨⟨trivial, .inl (Nat.zero_le _)⟩, .inl ⟨rfl, rfl⟩⟩⟩

theorem invT_new (bytes : Bytes) (t : Option Nat) : InvT st bytes True .init (new (σ := AbsSrc) ⟨bytes, t, []⟩ st) := by
  have h : InvT st bytes True (Ctx.top []).mode (new (σ := AbsSrc) ⟨bytes, t, []⟩ st) := by
    refine .at (c := .top []) ?_
    have h1 : noTerm (new (σ := AbsSrc) ⟨bytes, t, []⟩ st) = stp st (.top []) (posOf []) none bytes := new_eq st bytes
    rw [h1]
    exact .n (initial_invN st bytes)
  exact h

/-- results which never occur -/
def Bad (r : Except RErr Out) : Prop := (∃ p, r = .error (.panic (.internal p))) ∨ r = .error .outOfFuel

theorem Err.notBad {e : RErr} (h : Err st inp g m op e s) : ¬ Bad (.error e) := by
  rintro (⟨p, hp⟩ | hp)
  · cases hp
    cases h with
    | fatal h hp => exact hp _ rfl
    | nonfatal m' h => exact Bool.noConfusion h
  · cases hp
    cases h with
    | fatal h hp hf => exact hf rfl
    | nonfatal m' h => exact Bool.noConfusion h

theorem call_any (h : InvT st inp g m s) : Wp (runOp op) s (fun o s' => m.allowed st.allowMultipleTopLevel op = true ∧ (op ≠ .consumeTrailingWhitespace → InvT st inp g (m.next o op) s')) (Err st inp g m op) := by
  by_cases hop : op = .consumeTrailingWhitespace
  · subst hop
    exact (trailing_wp h).mono (fun _ _ h => ⟨h.2.1, fun h => absurd rfl h⟩) fun _ _ h => h
  · exact (call_wp h hop).mono (fun _ _ h => ⟨h.1, fun _ => h.2⟩) fun _ _ h => h

theorem runOps_notBad : ∀ (ops : List Op) {g : Prop} {m : Mode} {s : St}, InvT st inp g m s → ∀ r ∈ runOps ops s, ¬ Bad r := by
  intro ops
  induction ops with
  | nil => intro g m s _ r hr; cases hr
  | cons op ops ih =>
    intro g m s h r hr
    have hw := call_any (op := op) h
    unfold Wp at hw
    unfold runOps at hr
    cases hrun : (runOp op).run s with
    | ok o s' =>
      rw [hrun] at hw hr
      rcases List.mem_cons.1 hr with rfl | hr
      · rintro (⟨p, hp⟩ | hp) <;> cases hp
      · split at hr
        · cases hr
        · exact ih (hw.2 ‹_›) r hr
    | err e s' =>
      rw [hrun] at hw hr
      rcases List.mem_cons.1 hr with rfl | hr
      · exact hw.notBad
      · split at hr
        · cases hr
        · rename_i hf
          simp only [Bool.or_eq_true, decide_eq_true_eq, not_or] at hf
          cases hw with
          | src => exact absurd rfl hf.1
          | panic => exact absurd rfl hf.1
          | fatal h => exact absurd h hf.1
          | nonfatal m' h hm => exact ih (hm hf.2) r hr

theorem runOps_abides : ∀ (ops : List Op) {g : Prop} {m : Mode} {s : St}, InvT st inp g m s → m.abides st.allowMultipleTopLevel ops (runOps ops s) = true →
    ∀ r ∈ runOps ops s, ∀ p, r ≠ .error (.panic p) := by
  intro ops
  induction ops with
  | nil => intro g m s _ _ r hr; cases hr
  | cons op ops ih =>
    intro g m s h ha r hr
    have hw := call_any (op := op) h
    unfold Wp at hw
    unfold runOps at hr ha
    cases hrun : (runOp op).run s with
    | ok o s' =>
      rw [hrun] at hw hr ha
      dsimp only at ha
      unfold Mode.abides at ha
      rw [Bool.and_eq_true] at ha
      rcases List.mem_cons.1 hr with rfl | hr
      · exact fun p => nofun
      · split at hr
        · cases hr
        · rename_i hop
          refine ih (hw.2 hop) ?_ r hr
          rw [if_neg hop] at ha
          simpa [hop] using ha.2
    | err e s' =>
      rw [hrun] at hw hr ha
      dsimp only at ha
      unfold Mode.abides at ha
      rw [Bool.and_eq_true] at ha
      rcases List.mem_cons.1 hr with rfl | hr
      · rintro p hp
        cases hp
        cases hw with
        | panic h => rw [ha.1] at h; exact Bool.noConfusion h
        | fatal h hp => exact hp _ rfl
        | nonfatal m' h => exact Bool.noConfusion h
      · split at hr
        · cases hr
        · rename_i hf
          rw [if_neg hf] at ha
          simp only [Bool.or_eq_true, decide_eq_true_eq, not_or] at hf
          have hf1 : e.fatal = false := eq_false_of_ne_true hf.1
          cases hw with
          | src => exact absurd rfl hf.1
          | panic => exact absurd rfl hf.1
          | fatal h => exact absurd h hf.1
          | nonfatal m' h hm hc =>
            have ha2 := ha.2
            rw [hf1, decide_eq_false hf.2] at ha2
            cases hcm : Mode.composite op with
            | true =>
              rw [hcm] at ha2
              have hops : ops = [] := by simpa using ha2
              subst hops
              cases hr
            | false =>
              rw [hcm] at ha2
              cases hc hcm
              exact ih (hm hf.2) (by simpa using ha2) r hr

theorem runOps_after : ∀ (ops : List Op) {g : Prop} {m m' : Mode} {s : St}, InvT st inp g m s → m.after ops (runOps ops s) = some m' →
    ∃ (s' : St) (g' : Prop), ((∀ r ∈ runOps ops s, ∀ t l, r ≠ .error (.unsupportedNumberValue t l)) → g → g') ∧ InvT st inp g' m' s' ∧
      ∀ tail, runOps (ops ++ tail) s = runOps ops s ++ runOps tail s' := by
  intro ops
  induction ops with
  | nil =>
    intro g m m' s h ha
    cases ha
    exact ⟨s, g, fun _ h => h, h, fun _ => rfl⟩
  | cons op ops ih =>
    intro g m m' s h ha
    have hw := call_any (op := op) h
    unfold Wp at hw
    have hr : ∀ l, runOps (op :: l) s = match (runOp op).run s with
      | .ok o s' => .ok o :: if op = .consumeTrailingWhitespace then [] else runOps l s'
      | .err e s' => .error e :: if e.fatal || op = .consumeTrailingWhitespace then [] else runOps l s' := fun _ => by rw [runOps]; cases (runOp op).run s <;> rfl
    simp only [List.cons_append]
    simp only [hr] at ha ⊢
    cases hrun : (runOp op).run s with
    | ok o s' =>
      rw [hrun] at hw ha
      simp only at ha ⊢
      unfold Mode.after at ha
      by_cases hop : op = .consumeTrailingWhitespace
      · rw [if_pos hop] at ha; cases ha
      · rw [if_neg hop, if_neg hop] at ha
        obtain ⟨s2, g', h1, h2, h3⟩ := ih (hw.2 hop) ha
        refine ⟨s2, g', ?_, h2, ?_⟩
        · intro hr
          rw [if_neg hop] at hr
          exact h1 fun r h => hr r (List.mem_cons_of_mem _ h)
        · intro tail
          rw [if_neg hop, if_neg hop, h3, List.cons_append]
    | err e s' =>
      rw [hrun] at hw ha
      simp only at ha ⊢
      unfold Mode.after at ha
      by_cases hf : (e.fatal || Mode.composite op || decide (op = .consumeTrailingWhitespace)) = true
      · rw [if_pos hf] at ha; cases ha
      · rw [if_neg hf] at ha
        simp only [Bool.or_eq_true, decide_eq_true_eq, not_or] at hf
        obtain ⟨⟨hf1, hf2⟩, hf3⟩ := hf
        have hn : ¬ (e.fatal || decide (op = .consumeTrailingWhitespace)) = true := by simp [hf1, hf3]
        rw [if_neg hn] at ha
        cases hw with
        | src => exact absurd rfl hf1
        | panic => exact absurd rfl hf1
        | fatal h => exact absurd h hf1
        | nonfatal m2 h hm hc =>
          cases hc (eq_false_of_ne_true hf2)
          obtain ⟨s2, g', h1, h2, h3⟩ := ih (hm hf3) ha
          refine ⟨s2, g', ?_, h2, ?_⟩
          · intro hr hg
            rw [if_neg hn] at hr
            refine h1 (fun r h => hr r (List.mem_cons_of_mem _ h)) ⟨hg, fun t l he => ?_⟩
            exact hr _ (List.mem_cons_self ..) t l (by rw [he])
          · intro tail
            rw [if_neg hn, if_neg hn, h3, List.cons_append]

/-- the calls before a call which is made -/
theorem runOps_reach {op : Op} : ∀ (ops : List Op) {g : Prop} {m : Mode} {s : St}, InvT st inp g m s → (runOps (ops ++ [op]) s).length = ops.length + 1 →
    ∃ (s' : St) (g' : Prop) (m' : Mode), ((∀ r ∈ runOps ops s, ∀ t l, r ≠ .error (.unsupportedNumberValue t l)) → g → g') ∧ InvT st inp g' m' s' ∧
      ∀ tail, runOps (ops ++ tail) s = runOps ops s ++ runOps tail s' := by
  intro ops
  induction ops with
  | nil =>
    intro g m s h ha
    exact ⟨s, g, m, fun _ h => h, h, fun _ => rfl⟩
  | cons o ops ih =>
    intro g m s h ha
    have hw := call_any (op := o) h
    unfold Wp at hw
    have hr : ∀ l, runOps (o :: l) s = match (runOp o).run s with
      | .ok x s' => .ok x :: if o = .consumeTrailingWhitespace then [] else runOps l s'
      | .err e s' => .error e :: if e.fatal || o = .consumeTrailingWhitespace then [] else runOps l s' := fun _ => by rw [runOps]; cases (runOp o).run s <;> rfl
    simp only [List.cons_append] at ha ⊢
    simp only [hr] at ha ⊢
    cases hrun : (runOp o).run s with
    | ok x s' =>
      rw [hrun] at hw ha
      simp only at ha ⊢
      by_cases hop : o = .consumeTrailingWhitespace
      · rw [if_pos hop] at ha; simp at ha
      · rw [if_neg hop] at ha
        obtain ⟨s2, g', m', h1, h2, h3⟩ := ih (hw.2 hop) (by simpa using ha)
        refine ⟨s2, g', m', ?_, h2, ?_⟩
        · intro hr
          rw [if_neg hop] at hr
          exact h1 fun r h => hr r (List.mem_cons_of_mem _ h)
        · intro tail
          rw [if_neg hop, if_neg hop, h3, List.cons_append]
    | err e s' =>
      rw [hrun] at hw ha
      simp only at ha ⊢
      by_cases hf : (e.fatal || decide (o = .consumeTrailingWhitespace)) = true
      · rw [if_pos hf] at ha; simp at ha
      · rw [if_neg hf] at ha
        have hn := hf
        simp only [Bool.or_eq_true, decide_eq_true_eq, not_or] at hf
        obtain ⟨hf1, hf3⟩ := hf
        cases hw with
        | src => exact absurd rfl hf1
        | panic => exact absurd rfl hf1
        | fatal h => exact absurd h hf1
        | nonfatal m2 h hm hc =>
          obtain ⟨s2, g', m', h1, h2, h3⟩ := ih (hm hf3) (by simpa using ha)
          refine ⟨s2, g', m', ?_, h2, ?_⟩
          · intro hr hg
            rw [if_neg hn] at hr
            refine h1 (fun r h => hr r (List.mem_cons_of_mem _ h)) ⟨hg, fun t l he => ?_⟩
            exact hr _ (List.mem_cons_self ..) t l (by rw [he])
          · intro tail
            rw [if_neg hn, if_neg hn, h3, List.cons_append]

/-- a call which is not allowed panics -/
theorem misuse_panics (h : InvT st inp g m s) (ha : m.allowed st.allowMultipleTopLevel op = false) (hop : ∀ p, op ≠ .seekBack p) : Panics (runOp op) s := by
  generalize hs : noTerm s = t at h
  unfold InvT at h
  rw [hs] at h
  cases h with
  | @«at» c _ h => exact not_allowed_panics (lift_looks (hs ▸ h.looks)) ha hop
  | @active c l pos r x y h1 h2 h3 h4 => exact active_panics (by exact congrArg RState.stringReaderActive hs) ha

theorem noTerm_position (s : St) (b : Bool) : currentPosition (noTerm s) b = currentPosition s b := rfl

end Verif.Abs
