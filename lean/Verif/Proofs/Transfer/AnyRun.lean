import Verif.Proofs.Transfer.Any
import Verif.Proofs.Abs.Steps
import Verif.Proofs.Abs.Progress
import Verif.Proofs.Abs.Front
/-!
# Programs which use `transfer_to` on arbitrary input
-/

namespace Verif.Transfer
open Reader Writer Json Usage
open WSpec (Written)
open Abs (St Ctx At VPost CanPeek Readable EOk InvT Inv Err Steps noTerm noTerm_of_none noTerm_of_RRel RRel_of_noTerm Panics Tr PosLe Fwd)

variable {dev : Prop} {st : Settings} {wst : WSettings} {inp : Bytes} {g : Prop} {m m' : Mode} {w : Written} {s s' : St} {ops : List Op} {rs : List (Except RErr Out)} {α β : Type}

/-! ## The calls in front of `transfer_to` -/

theorem stateAfter_steps (h : Steps ops s rs s') : stateAfter ops s = some s' := by
  induction h with
  | nil => rfl
  | ok hop h _ ih => rw [stateAfter, h]; dsimp only; rw [if_neg hop, ih]
  | err hop hf h _ ih => rw [stateAfter, h]; dsimp only; rw [hf, decide_eq_false hop]; exact ih

theorem steps_stateAfter : ∀ (ops : List Op) {s s' : St}, stateAfter ops s = some s' → ∃ rs, Steps ops s rs s' := by
  intro ops
  induction ops with
  | nil => intro s s' h; cases h; exact ⟨_, .nil⟩
  | cons op ops ih =>
    intro s s' h
    rw [stateAfter] at h
    cases hr : (runOp op).run s with
    | ok o s1 =>
      rw [hr] at h
      dsimp only at h
      by_cases hop : op = .consumeTrailingWhitespace
      · rw [if_pos hop] at h; cases h
      · rw [if_neg hop] at h
        obtain ⟨rs, h'⟩ := ih h
        exact ⟨_, .ok hop hr h'⟩
    | err e s1 =>
      rw [hr] at h
      dsimp only at h
      by_cases hf : (e.fatal || decide (op = .consumeTrailingWhitespace)) = true
      · rw [if_pos hf] at h; cases h
      · rw [if_neg hf] at h
        simp only [Bool.or_eq_true, decide_eq_true_eq, not_or] at hf
        obtain ⟨rs, h'⟩ := ih h
        exact ⟨_, .err hf.2 (eq_false_of_ne_true hf.1) hr h'⟩

theorem steps_results (h : Steps ops s rs s') : runOps ops s = rs := by
  have := h.runOps []
  rw [List.append_nil] at this
  rw [this, runOps, List.append_nil]

/-- the state belongs to the mode determined by the calls and their results -/
theorem steps_mode (h : Steps ops s rs s') : ∀ {g : Prop} {m : Mode}, InvT st inp g m s → m.after ops rs = some m' → ∃ g', InvT st inp g' m' s' := by
  induction h with
  | nil => intro g m h ha; cases ha; exact ⟨_, h⟩
  | @ok op ops o s s1 s' rs hop hr _ ih =>
    intro g m h ha
    have hw := Abs.call_any (op := op) h
    unfold Wp at hw
    rw [hr] at hw
    unfold Mode.after at ha
    rw [if_neg hop] at ha
    exact ih (hw.2 hop) ha
  | @err op ops e s s1 s' rs hop hf hr _ ih =>
    intro g m h ha
    have hw := Abs.call_any (op := op) h
    unfold Wp at hw
    rw [hr] at hw
    unfold Mode.after at ha
    by_cases hc : (e.fatal || Mode.composite op || decide (op = .consumeTrailingWhitespace)) = true
    · rw [if_pos hc] at ha; cases ha
    · rw [if_neg hc] at ha
      simp only [Bool.or_eq_true, decide_eq_true_eq, not_or] at hc
      cases hw with
      | src => cases hf
      | panic => cases hf
      | fatal h => rw [hf] at h; cases h
      | nonfatal m2 h hm hcm =>
        cases hcm (eq_false_of_ne_true hc.1.2)
        exact ih (hm hop) ha

/-- the mode exists if there is no error of a composite call -/
theorem after_steps : ∀ (ops : List Op) {m : Mode} {s : St}, m.after ops (runOps ops s) = some m' → ∃ s', Steps ops s (runOps ops s) s' := by
  intro ops
  induction ops with
  | nil => intro m s _; exact ⟨s, .nil⟩
  | cons op ops ih =>
    intro m s h
    rw [runOps] at h ⊢
    cases hr : (runOp op).run s with
    | ok o s1 =>
      rw [hr] at h
      dsimp only at h ⊢
      unfold Mode.after at h
      by_cases hop : op = .consumeTrailingWhitespace
      · rw [if_pos hop] at h; cases h
      · rw [if_neg hop, if_neg hop] at h
        rw [if_neg hop]
        obtain ⟨s', h'⟩ := ih h
        exact ⟨s', .ok hop hr h'⟩
    | err e s1 =>
      rw [hr] at h
      dsimp only at h ⊢
      unfold Mode.after at h
      by_cases hc : (e.fatal || Mode.composite op || decide (op = .consumeTrailingWhitespace)) = true
      · rw [if_pos hc] at h; cases h
      · rw [if_neg hc] at h
        simp only [Bool.or_eq_true, decide_eq_true_eq, not_or] at hc
        have hn : ¬ (e.fatal || decide (op = .consumeTrailingWhitespace)) = true := by simp [hc]
        rw [if_neg hn] at h ⊢
        obtain ⟨s', h'⟩ := ih h
        exact ⟨s', .err hc.2 (eq_false_of_ne_true hc.1.1) hr h'⟩

/-! ## `transfer_to` -/

/-- the result of `transfer_to` started in the state `s` -/
def Done (dev : Prop) (st : Settings) (wst : WSettings) (inp : Bytes) (g : Prop) (m : Mode) (w : Written) (s : St) (r : Except TErr Unit × (St × Core)) (x : Bytes) : Prop := match r.1 with
  | .ok _ => ∃ c v, m = c.mode ∧ m.allowed st.allowMultipleTopLevel .skipValue = true ∧ At st inp g c (noTerm s) ∧ Readable st c v ∧ VPost st inp g c (noTerm s) v (noTerm r.2.1) ∧
      (dev ∨ JW wst (w.add v.value) r.2.2 x)
  | .error (.reader e) => Err st inp g m .skipValue e r.2.1
  | .error (.writer _) => dev

/-- a call which is not allowed panics -/
theorem transferTo_panics {p : UsagePanic} (hp : (peek : R AbsSrc _).run s = .err (.panic (.usage p)) s') (c : Core) :
    ∃ p s', transferTo.run (s, c) = .ret (.error (.reader (.panic (.usage p))), (s', c)) := by
  unfold transferTo
  rw [T.run_bind]
  show ∃ p s', ((if s.expectsMemberName then onReader (usagePanic .valueWhenExpectingName) else transferLoop (fuel s) 0 : X AbsSrc Unit).run (s, c)) = _
  by_cases he : s.expectsMemberName = true
  · rw [if_pos he]
    exact ⟨_, _, rfl⟩
  · rw [if_neg he]
    refine ⟨p, s', ?_⟩
    show (transferLoop (s.src.rest.length + 1 + 1) 0).run (s, c) = _
    have h1 : (onReader (atContainerEnd (σ := AbsSrc) 0)).run (s, c) = .ret (.ok false, (s, c)) := rfl
    have h2 : (transferName (σ := AbsSrc)).run (s, c) = .ret (.ok (), (s, c)) := by
      unfold transferName
      rw [T.run_bind]
      show ((if s.expectsMemberName then _ else pure () : X AbsSrc Unit).run (s, c)) = _
      rw [if_neg he]
      rfl
    have h3 : (transferStart (σ := AbsSrc)).run (s, c) = .ret (.error (.reader (.panic (.usage p))), (s', c)) := by
      unfold transferStart
      rw [T.run_bind]
      have : (onReader (peek (σ := AbsSrc))).run (s, c) = .ret (.error (.reader (.panic (.usage p))), (s', c)) := by
        unfold onReader
        dsimp only
        rw [hp]
      rw [this]
      rfl
    unfold transferLoop
    rw [T.run_bind, h1]
    show ((if false = true then _ else _ : X AbsSrc Nat) >>= _ : X AbsSrc Unit).run (s, c) = _
    rw [if_neg Bool.false_ne_true, T.run_bind, T.run_bind, h2]
    show (((transferStart >>= fun d => pure (0 + d) : X AbsSrc Nat).run (s, c)).bind _) = _
    rw [T.run_bind, h3]
    rfl

/-- a call which is not allowed panics -/
theorem transferTo_forbidden (h : InvT st inp g m s) (ha : m.allowed st.allowMultipleTopLevel .skipValue = false) (c : Core) :
    ∃ p s', transferTo.run (s, c) = .ret (.error (.reader (.panic (.usage p))), (s', c)) := by
  have hp : Panics peek s := by
    generalize hs : noTerm s = t at h
    unfold InvT at h
    rw [hs] at h
    cases h with
    | @«at» c _ h => exact Abs.peek_panics (Abs.lift_looks (hs ▸ h.looks)) fun h' => by rw [show c.mode.allowed _ .skipValue = true from Abs.canValue_iff.2 h'] at ha; cases ha
    | @active c l pos r x y h1 h2 h3 h4 => exact Abs.active_peek (by exact congrArg RState.stringReaderActive hs)
  obtain ⟨p, s', hp⟩ := hp
  exact transferTo_panics hp c

theorem transferTo_any (h : InvT st inp g m s) (hw : w.CanAdd wst) {c : Core} {x : Bytes} (hI : dev ∨ JW wst w c x) :
    (transferTo.run (s, c)).Walk dev (Done dev st wst inp g m w s) x := by
  cases ha : m.allowed st.allowMultipleTopLevel .skipValue with
  | false =>
    obtain ⟨p, s', hp⟩ := transferTo_forbidden h ha c
    rw [hp]
    exact .panic ha
  | true =>
    generalize hs : noTerm s = t at h
    unfold InvT at h
    rw [hs] at h
    cases h with
    | @active c l pos r x y h1 h2 h3 h4 => exact Bool.noConfusion ha
    | @«at» ctx _ h =>
      obtain ⟨he, hc⟩ := Abs.canValue_iff.1 ha
      have hx := transferTo_wp (dev := dev) h hc he hw c x hI
      cases ht : s.src.term with
      | none =>
        rw [noTerm_of_none ht] at hs
        subst hs
        refine hx.mono ?_
        rintro ⟨r, s', c'⟩ x' hf
        match r, hf with
        | .ok _, ⟨I, ⟨v, h1, h2, hI⟩, h3⟩ =>
          have h2' : VPost st inp g ctx s v s' := h2
          have hn : noTerm s' = s' := by
            obtain ⟨l, pos, r, hsl, rfl, h4, h5⟩ := h2'
            rfl
          refine ⟨ctx, v, rfl, ha, (noTerm_of_none ht).symm ▸ h, h1, ?_, hI ▸ h3⟩
          show VPost st inp g ctx (noTerm s) v (noTerm s')
          rw [noTerm_of_none ht, hn]
          exact h2
        | .error (.reader e), hf =>
          have hf : EOk st inp g (fun _ => True) e s' := hf
          refine Err.of_EOk (.inl ha) (.inr ⟨s', EOk.mono hf fun _ _ => nofun, fun hn => ?_⟩)
          exact (noTerm_of_none (hf.term hn)).symm
        | .error (.writer _), hf => exact hf
      | some k =>
        have hr := transferTo_relX (S := AbsSrc.truncSim k [] none s.settings) (by rintro (⟨_, h⟩ | ⟨h, _⟩) <;> first | exact h rfl | cases h) s t c (hs ▸ RRel_of_noTerm ht)
        refine Tree.Walk.relX ?_ ?_ hr hx
        · rintro ⟨r, s1, c1⟩ ⟨r2, s2, c2⟩ x' ⟨h1, h2, h3⟩ hf
          dsimp only at h1 h2 h3
          subst h1 h2
          match r, h3, hf with
          | .ok _, h3, ⟨I, ⟨v, h4, h5, hI⟩, h6⟩ =>
            have h3 := h3.resolve_right (by rintro ⟨_, h, _⟩; cases h)
            have := (noTerm_of_RRel h3).1
            subst this
            exact ⟨ctx, v, rfl, ha, hs ▸ h, h4, hs ▸ h5, hI ▸ h6⟩
          | .error (.reader e), h3, hf =>
            have hf : EOk st inp g (fun _ => True) e s2 := hf
            refine Err.of_EOk (.inl ha) (.inr ⟨s2, EOk.mono hf fun _ _ => nofun, fun hn => ?_⟩)
            rcases h3 with h3 | ⟨_, h3, h4⟩
            · exact (noTerm_of_RRel h3).1
            · cases h3
              exact (noTerm_of_RRel (h4.1 hn)).1
          | .error (.writer _), _, hf => exact hf
        · rintro ⟨r, s1, c1⟩ x' ⟨e, h1, h2⟩
          dsimp only at h1
          subst h1
          rcases h2 with ⟨l, rfl⟩ | ⟨h, _⟩
          · exact .src
          · exact absurd rfl h

/-! ## Progress -/

/-- the position after a successful run is at least `b` behind the one before -/
def Ahead (b : Nat) (m : X AbsSrc α) : Prop := ∀ s c x, (m.run (s, c)).Walk True (fun r _ => ∀ a, r.1 = .ok a → s.bytePos + b ≤ r.2.1.bytePos) x

theorem Ahead.bind {m : X AbsSrc α} {f : α → X AbsSrc β} {b1 b2 : Nat} (h : Ahead b1 m) (hf : ∀ a, Ahead b2 (f a)) : Ahead (b1 + b2) (m >>= f) := by
  intro s c x
  rw [T.run_bind]
  refine (h s c x).bind ?_
  rintro ⟨r, s', c'⟩ x' h
  cases r with
  | error e => intro a h; cases h
  | ok a =>
    refine (hf a s' c' x').mono ?_
    intro r _ h2 b hb
    have := h a rfl
    have := h2 b hb
    dsimp only at *
    omega

theorem Ahead.le {m : X AbsSrc α} {b b' : Nat} (h : Ahead b m) (hb : b' ≤ b) : Ahead b' m := fun s c x => (h s c x).mono fun r _ h a ha => by have := h a ha; omega

theorem Ahead.pure (a : α) : Ahead 0 (pure a) := fun _ _ _ _ _ => Nat.le_refl _
theorem Ahead.get {f : St × Core → X AbsSrc α} {b : Nat} (h : ∀ x, Ahead b (f x)) : Ahead b (T.get >>= f) := fun s c x => h (s, c) s c x

theorem Ahead.reader {m : R AbsSrc α} (h : Tr PosLe m) : Ahead 0 (onReader m) := by
  intro s c x
  unfold onReader
  dsimp only
  cases hm : m.run s with
  | ok a s' => exact fun _ _ => h _ _ _ hm
  | err e s' => exact fun _ h => nomatch h

theorem Ahead.fwd {m : R AbsSrc α} (h : Fwd m) : Ahead 1 (onReader m) := by
  intro s c x
  unfold onReader
  dsimp only
  cases hm : m.run s with
  | ok a s' => exact fun _ _ => (h _ _ _ hm).2
  | err e s' => exact fun _ h => nomatch h

theorem Ahead.writer {m : W α} : Ahead 0 (onWriter m) := by
  intro s c x
  unfold onWriter
  dsimp only
  refine (Tree.Walk.any trivial (m.run c) x).bind ?_
  rintro ⟨_ | a, c'⟩ x' -
  · exact fun _ h => nomatch h
  · exact fun _ _ => Nat.le_refl _

theorem Ahead.ite {p : Prop} [Decidable p] {m1 m2 : X AbsSrc α} {b : Nat} (h1 : Ahead b m1) (h2 : Ahead b m2) : Ahead b (if p then m1 else m2) := by
  split
  · exact h1
  · exact h2

theorem fill_le : ∀ (n : Nat) (out : Bytes), Tr PosLe (transferFill n out : R AbsSrc _) := by
  intro n
  induction n with
  | zero => intro out; exact Tr.fail
  | succ n ih =>
    intro out
    unfold transferFill
    refine Tr.ite (Tr.bind (Tr.of_loc Abs.loc_readStringBytes) fun a => ?_) (Tr.pure _)
    obtain ⟨e, bs⟩ := a
    exact Tr.ite (Tr.fail) (Tr.ite (Tr.pure _) (ih _))

theorem piece_le : Tr PosLe (transferPiece : R AbsSrc _) := by
  unfold transferPiece
  refine Tr.bind (fill_le _ _) fun a => ?_
  obtain ⟨e, bs⟩ := a
  dsimp only
  split
  · exact Tr.pure _
  · exact Tr.fail

theorem ahead_stringLoop (n : Nat) : Ahead 0 (transferStringLoop n) := by
  induction n with
  | zero => exact Ahead.reader (Tr.fail)
  | succ n ih =>
    unfold transferStringLoop
    refine Ahead.bind (b1 := 0) (b2 := 0) (.reader piece_le) fun a => ?_
    exact Ahead.bind (b1 := 0) (b2 := 0) .writer fun _ => .ite (.pure _) ih

theorem ahead_transferString : Ahead 1 transferString := by
  unfold transferString
  refine Ahead.bind (b1 := 1) (b2 := 0) (.fwd (Abs.fwd_start nofun)) fun _ => Ahead.bind (b1 := 0) (b2 := 0) .writer fun _ => Ahead.get fun x => ?_
  exact Ahead.bind (b1 := 0) (b2 := 0) (ahead_stringLoop _) fun _ => Ahead.bind (b1 := 0) (b2 := 0) .writer fun _ => .reader (Tr.of_loc Abs.loc_onValueEnd)

theorem ahead_transferStart : Ahead 1 transferStart := by
  unfold transferStart
  refine Ahead.bind (b1 := 0) (b2 := 1) (.reader (Tr.of_loc Abs.loc_peek)) fun t => ?_
  cases t with
  | array => exact Ahead.bind (b1 := 1) (b2 := 0) (.fwd Abs.fwd_beginArray) fun _ => Ahead.bind (b1 := 0) (b2 := 0) .writer fun _ => .pure _
  | object => exact Ahead.bind (b1 := 1) (b2 := 0) (.fwd Abs.fwd_beginObject) fun _ => Ahead.bind (b1 := 0) (b2 := 0) .writer fun _ => .pure _
  | string => exact Ahead.bind (b1 := 1) (b2 := 0) ahead_transferString fun _ => .pure _
  | number =>
    refine Ahead.bind (b1 := 1) (b2 := 0) (.fwd ?_) fun _ => Ahead.bind (b1 := 0) (b2 := 0) .writer fun _ => .pure _
    exact Abs.fwd_readNumberBytes.after' (fun _ => .liftS) fun _ => .getStr
  | boolean => exact Ahead.bind (b1 := 1) (b2 := 0) (.fwd Abs.fwd_nextBool) fun _ => Ahead.bind (b1 := 0) (b2 := 0) .writer fun _ => .pure _
  | null => exact Ahead.bind (b1 := 1) (b2 := 0) (.fwd Abs.fwd_nextNull) fun _ => Ahead.bind (b1 := 0) (b2 := 0) .writer fun _ => .pure _

theorem ahead_transferLoop (n : Nat) : ∀ d, Ahead 1 (transferLoop n d) := by
  induction n with
  | zero => intro d s c x; exact fun _ h => nomatch h
  | succ n ih =>
    intro d
    unfold transferLoop
    refine Ahead.bind (b1 := 0) (b2 := 1) (.reader (Tr.of_loc Abs.loc_atContainerEnd)) fun a => ?_
    refine Ahead.bind (b1 := 1) (b2 := 0) ?_ fun d => .ite (.pure _) ((ih d).le (Nat.zero_le _))
    refine .ite ?_ ?_
    · unfold transferEnd
      refine Ahead.bind (b1 := 1) (b2 := 0) (Ahead.get fun x => ?_) fun _ => .pure _
      exact .ite (Ahead.bind (b1 := 1) (b2 := 0) (.fwd Abs.fwd_endArray) fun _ => .writer) (Ahead.bind (b1 := 1) (b2 := 0) (.fwd Abs.fwd_endObject) fun _ => .writer)
    · refine Ahead.bind (b1 := 0) (b2 := 1) ?_ fun _ => Ahead.bind (b1 := 1) (b2 := 0) ahead_transferStart fun _ => .pure _
      unfold transferName
      refine Ahead.get fun x => .ite (Ahead.le (Ahead.bind (b1 := 1) (b2 := 0) (.fwd Abs.fwd_names.1) fun _ => .writer) (Nat.zero_le _)) (.pure _)

theorem ahead_transferTo : Ahead 1 transferTo := by
  unfold transferTo
  exact Ahead.get fun x => .ite (fun s c x => fun _ h => nomatch h) (ahead_transferLoop _ _)

/-! ## Programs -/

theorem transferOps_walk {P : Except TErr Unit × (St × Core) → Bytes → Prop} (h : ∀ c x, (transferTo.run (s, c)).Walk True P x) (wpre wpost : List WOp) (c : Core) :
    ((transferOps wpre wpost s).run c).Walk True (fun r _ => ∃ t, r.1 = .ok t ∧ ((t.transfer = none ∧ t.reader = s) ∨ ∃ q c x, t.transfer = some q ∧ P (q, (t.reader, c)) x)) [] := by
  unfold transferOps
  rw [T.run_bind]
  refine (Tree.Walk.any trivial _ _).bind ?_
  rintro ⟨e | pre, c'⟩ x' -
  · nomatch e
  dsimp only
  split
  · exact ⟨_, rfl, .inl ⟨rfl, rfl⟩⟩
  · rw [T.run_bind]
    unfold transferCall
    refine Tree.Walk.bind (P := fun r _ => ∃ q s' c x, r = (.ok (q, s'), c) ∧ P (q, (s', c)) x) ?_ ?_
    · refine (h c' x').bind ?_
      rintro ⟨q, s', c2⟩ x2 h
      exact ⟨q, s', c2, x2, rfl, h⟩
    · rintro _ x2 ⟨q, s', c2, x3, rfl, h⟩
      dsimp only
      cases q with
      | error e => exact ⟨_, rfl, .inr ⟨_, _, _, rfl, h⟩⟩
      | ok u =>
        dsimp only
        rw [T.run_bind]
        refine (Tree.Walk.any trivial _ _).bind ?_
        rintro ⟨e | post, c3⟩ x4 -
        · nomatch e
        · exact ⟨_, rfl, .inr ⟨_, _, _, rfl, h⟩⟩

/-- the result of a program, whatever the underlying `Write` does -/
theorem run_walk {N M : Nat} {sched : List ReadEvent} {pre post : List Op} {sink sk : Sink} {wpre wpost : List WOp} {t : TransferRun} (hN : 0 < N)
    (hr : runTransfer N st sched pre post M wst sink wpre wpost = some (.ok t, sk)) {P : St → Except TErr Unit × (St × Core) → Bytes → Prop}
    (hP : ∀ s, Steps pre (new (⟨BufSrc.schedBytes sched, BufSrc.schedError sched, []⟩ : AbsSrc) st) (runReader N st sched pre) s → ∀ c x, (transferTo.run (s, c)).Walk True (P s) x) :
    ∃ s, Steps pre (new (⟨BufSrc.schedBytes sched, BufSrc.schedError sched, []⟩ : AbsSrc) st) (runReader N st sched pre) s ∧
      ((t.transfer = none ∧ t.reader = runOps post s) ∨ ∃ q s' c x, t.transfer = some q ∧ t.reader = (if stopsReader (some q) then [] else runOps post s') ∧ P s (q, (s', c)) x) := by
  rw [runTransfer_abs hN] at hr
  unfold runTransferAbs at hr
  split at hr
  · cases hr
  rename_i s hs
  obtain ⟨rs, hs⟩ := steps_stateAfter pre hs
  have : rs = runReader N st sched pre := by rw [runReader_eq_runAbs hN]; exact (steps_results hs).symm
  subst this
  refine ⟨s, hs, ?_⟩
  have hw := transferOps_walk (P := P s) (hP s hs) wpre wpost (Core.new wst)
  unfold finishRun at hr
  split at hr
  · rename_i o c k hk
    cases hr
    obtain ⟨_, _, h1, h2⟩ := hw.run trivial hk
    cases h1
    rcases h2 with ⟨h2, h3⟩ | ⟨q, c, x, h2, h3⟩
    · exact .inl ⟨h2, by rw [h2, h3]; rfl⟩
    · exact .inr ⟨q, o.reader, c, x, h2, by rw [h2], h3⟩
  · rename_i e _ _ _
    nomatch e
  · cases hr

end Verif.Transfer
