import Verif.Proofs.Transfer.AnyRun
import Verif.Props.Transfer
/-!
# `transfer_to` on arbitrary input (C02, C08, C24, C28, C29)

The theorems about panics and termination are about arbitrary calls before and after `transfer_to`, arbitrary writers and an arbitrary underlying `Write`.
-/

namespace Verif.Props
open Reader Writer Json Transfer Usage Utf8
open WSpec (Written calls JOk Numbers)
open Abs (St Ctx At InvT InvP InvN VPost Readable Front front_of_post behind invT_new Steps stp typeOf isValue tokBytes startOf tailOf cfgOf CanPeek noTerm noTerm_of_none Fits Restricted tok_unique follow_start start_tail DataErr)

variable {N M : Nat} {st : Settings} {wst : WSettings} {sched : List ReadEvent} {bytes : Bytes} {pre post : List Op} {v : JVal} {wpre wpost : List WOp} {w : Written}
  {sink sk : Sink} {rs : List (Except RErr Out)} {P : Position} {rest : Bytes} {vt : ValueType} {t : TransferRun} {m : Mode}

/-! ## C02, C28, C29 -/

/-- what `transfer_to` does, for an arbitrary writer -/
theorem transfer_done (hN : 0 < N) (hr : runTransfer N st sched pre post M wst sink wpre wpost = some (.ok t, sk)) :
    ∃ s g m, InvT st (BufSrc.schedBytes sched) g m s ∧ (∀ m', Mode.init.after pre (runReader N st sched pre) = some m' → m' = m) ∧
      ((t.transfer = none ∧ t.reader = runOps post s) ∨ ∃ q s' c x, t.transfer = some q ∧ t.reader = (if stopsReader (some q) then [] else runOps post s') ∧
        Done True st wst (BufSrc.schedBytes sched) g m .empty s (q, (s', c)) x ∧
        (m.allowed st.allowMultipleTopLevel .skipValue = false → ∃ p, q = .error (.reader (.panic p)))) := by
  have key : ∀ s, Steps pre (new (⟨BufSrc.schedBytes sched, BufSrc.schedError sched, []⟩ : AbsSrc) st) (runReader N st sched pre) s →
      ∃ g m, InvT st (BufSrc.schedBytes sched) g m s ∧ ∀ m', Mode.init.after pre (runReader N st sched pre) = some m' → m' = m := by
    intro s hs
    cases hm : Mode.init.after pre (runReader N st sched pre) with
    | none =>
      obtain ⟨m, g, _, h⟩ := hs.inv (invT_new _ _)
      exact ⟨g, m, h, nofun⟩
    | some m =>
      obtain ⟨g, h⟩ := steps_mode hs (invT_new _ _) hm
      exact ⟨g, m, h, fun _ h => by cases h; rfl⟩
  have hw : ∀ s, Steps pre (new (⟨BufSrc.schedBytes sched, BufSrc.schedError sched, []⟩ : AbsSrc) st) (runReader N st sched pre) s → ∀ c x,
      (transferTo.run (s, c)).Walk True (fun r x => ∃ g m, InvT st (BufSrc.schedBytes sched) g m s ∧ (∀ m', Mode.init.after pre (runReader N st sched pre) = some m' → m' = m) ∧
        Done True st wst (BufSrc.schedBytes sched) g m .empty s r x ∧
        (m.allowed st.allowMultipleTopLevel .skipValue = false → ∃ p, r.1 = .error (.reader (.panic p)))) x := by
    intro s hs c x
    obtain ⟨g, m, hI, hm⟩ := key s hs
    cases ha : m.allowed st.allowMultipleTopLevel .skipValue with
    | true => exact (transferTo_any (wst := wst) (w := .empty) hI ⟨rfl, .inl rfl⟩ (.inl trivial)).mono fun r x h => ⟨g, m, hI, hm, h, fun h => by rw [ha] at h; cases h⟩
    | false =>
      obtain ⟨p, s', hp⟩ := transferTo_forbidden hI ha c
      rw [hp]
      exact ⟨g, m, hI, hm, .panic ha, fun _ => ⟨_, rfl⟩⟩
  obtain ⟨s, hs, h⟩ := run_walk hN hr hw
  rcases h with h | ⟨q, s', c, x, h1, h2, g, m, h3, h4, h5⟩
  · obtain ⟨g, m, hI, hm⟩ := key s hs
    exact ⟨s, g, m, hI, hm, .inl h⟩
  · exact ⟨s, g, m, h3, h4, .inr ⟨q, s', c, x, h1, h2, h5⟩⟩

/-- the results of the reader calls after `transfer_to` -/
theorem reader_notBad (hN : 0 < N) (hr : runTransfer N st sched pre post M wst sink wpre wpost = some (.ok t, sk)) (hw : ∀ e, t.transfer ≠ some (.error (.writer e))) :
    ∀ r ∈ t.reader, ¬ Abs.Bad r := by
  obtain ⟨s, g, m, hI, -, ⟨h1, h2⟩ | ⟨q, s', c, x, h1, h2, h3, -⟩⟩ := transfer_done hN hr
  · rw [h2]
    exact Abs.runOps_notBad post hI
  · rw [h2]
    match q, h1, h3 with
    | .error (.writer e), h1, _ => exact absurd h1 (hw e)
    | .ok (), h1, ⟨ctx, v, _, _, _, _, h4, _⟩ =>
      have h5 : InvT st (BufSrc.schedBytes sched) g ctx.mode.valueDone s' := h4.inv
      exact Abs.runOps_notBad post h5
    | .error (.reader e), h1, h3 =>
      have h3 : Abs.Err st (BufSrc.schedBytes sched) g m .skipValue e s' := h3
      by_cases hf : e.fatal = true
      · rw [show stopsReader (some (.error (.reader e))) = true from hf, if_pos rfl]
        exact nofun
      · rw [show stopsReader (some (.error (.reader e))) = e.fatal from rfl, if_neg hf]
        cases h3 with
        | src => exact absurd rfl hf
        | panic => exact absurd rfl hf
        | fatal h => exact absurd h hf
        | nonfatal m' _ hm => exact Abs.runOps_notBad post (hm nofun)

theorem transfer_notBad (hN : 0 < N) (hr : runTransfer N st sched pre post M wst sink wpre wpost = some (.ok t, sk)) {e : RErr} (he : t.transfer = some (.error (.reader e))) :
    ¬ Abs.Bad (.error e) := by
  obtain ⟨s, g, m, hI, -, ⟨h1, h2⟩ | ⟨q, s', c, x, h1, h2, h3, -⟩⟩ := transfer_done hN hr
  · rw [h1] at he; cases he
  · rw [h1] at he
    cases he
    exact Abs.Err.notBad h3

/-- C02: `transfer_to` never causes an internal panic of the reader, and neither do later calls. Missing: later calls if `transfer_to` failed with an error of the
writer (the reader may then be in the middle of a string; the documentation does not say what happens when it is used afterwards). -/
theorem C02_transfer_partial (hN : 0 < N) (hr : runTransfer N st sched pre post M wst sink wpre wpost = some (.ok t, sk)) (p : InternalPanic) :
    t.transfer ≠ some (.error (.reader (.panic (.internal p)))) ∧ ((∀ e, t.transfer ≠ some (.error (.writer e))) → Except.error (.panic (.internal p)) ∉ t.reader) :=
  ⟨fun h => transfer_notBad hN hr h (.inl ⟨_, rfl⟩), fun h hm => reader_notBad hN hr h _ hm (.inl ⟨_, rfl⟩)⟩

/-- C29: `transfer_to` ends, and so do later calls (unless the underlying `Write` failed, see above) -/
theorem C29_transfer_ends (hN : 0 < N) (hr : runTransfer N st sched pre post M wst sink wpre wpost = some (.ok t, sk)) :
    t.transfer ≠ some (.error (.reader .outOfFuel)) ∧ ((∀ e, t.transfer ≠ some (.error (.writer e))) → Except.error .outOfFuel ∉ t.reader) :=
  ⟨fun h => transfer_notBad hN hr h (.inr rfl), fun h hm => reader_notBad hN hr h _ hm (.inr rfl)⟩

/-- C29: a successful call of `transfer_to` consumes at least one byte -/
theorem C29_transfer_progress {P' : Position} (hN : 0 < N) (hr : runTransfer N st sched pre [.currentPosition false] M wst sink wpre wpost = some (.ok t, sk)) (ht : t.transfer = some (.ok ()))
    (hp : runReader N st sched (pre ++ [.currentPosition false]) = rs ++ [.ok (.position P)]) (hp' : t.reader = [.ok (.position P')]) : P.dataPos < P'.dataPos := by
  obtain ⟨s, hs, ⟨h1, _⟩ | ⟨q, s', c, x, h1, h2, h3⟩⟩ := run_walk hN hr (P := fun s r _ => ∀ a, r.1 = .ok a → s.bytePos + 1 ≤ r.2.1.bytePos) fun s _ c x => ahead_transferTo s c x
  · rw [h1] at ht; cases ht
  · rw [ht] at h1
    cases h1
    have h4 := hs.runOps [.currentPosition false]
    rw [runReader_eq_runAbs hN] at hp
    have h5 : rs ++ [.ok (.position P)] = runReader N st sched pre ++ runOps [.currentPosition false] s := hp.symm.trans h4
    have h6 : runOps [.currentPosition false] s = [.ok (.position (currentPosition s false))] := rfl
    rw [h6] at h5
    have h7 := (List.append_inj' h5 rfl).2
    have h8 : t.reader = [.ok (.position (currentPosition s' false))] := h2
    rw [hp'] at h8
    simp only [List.cons.injEq, Except.ok.injEq, Out.position.injEq, and_true] at h7 h8
    subst h7 h8
    exact h3 () rfl

/-- C28: whether `transfer_to` causes a panic of the reader depends only on the previous calls and their results; it does so if and only if no value may be read -/
theorem C28_transfer (hN : 0 < N) (hm : Mode.init.after pre (runReader N st sched pre) = some m) (hr : runTransfer N st sched pre post M wst sink wpre wpost = some (.ok t, sk))
    (ht : t.transfer ≠ none) : (∃ p, t.transfer = some (.error (.reader (.panic p)))) ↔ m.allowed st.allowMultipleTopLevel .skipValue = false := by
  obtain ⟨s, g, m', hI, hm', ⟨h1, h2⟩ | ⟨q, s', c, x, h1, h2, h3, h4⟩⟩ := transfer_done hN hr
  · exact absurd h1 ht
  · cases hm' m hm
    rw [h1]
    constructor
    · rintro ⟨p, h⟩
      cases h
      cases h3 with
      | panic h => exact h
      | fatal _ hp => exact absurd rfl (hp p)
      | nonfatal _ h => cases h
    · intro ha
      obtain ⟨p, rfl⟩ := h4 ha
      exact ⟨p, rfl⟩

/-! ## C08, C24 -/

/-- the reader in front of a value -/
theorem place (hN : 0 < N) (h : AtValue N st sched bytes pre rs vt P rest) :
    ∃ c s p l pos r, Steps pre (new (⟨bytes, none, []⟩ : AbsSrc) st) rs s ∧ At st bytes True c s ∧ c.emn = false ∧ CanPeek st c ∧ InvP st bytes True c p l pos r ∧ isValue p = true ∧
      typeOf p = vt ∧ rest = tokBytes p ++ r ∧ Abs.PeekTo p s (stp st c pos (some p) r) ∧ Abs.mu (stp st c pos (some p) r) ≤ Abs.mu s ∧ P = currentPosition (stp st c pos (some p) r) false := by
  have h1 := h.peeked
  rw [runReader_abs hN h.delivers] at h1
  obtain ⟨s, hs, h2⟩ := Abs.steps_of_eq h1 h.results
  obtain ⟨m, g, hg, hI⟩ := hs.inv (invT_new bytes none)
  have hg : g = True := eq_true (hg h.numbers trivial)
  subst hg
  have hterm : s.src.term = none := by
    have : ∀ {ops : List Op} {s s' : St} {rs : List (Except RErr Out)}, Steps ops s rs s' → s.src.term = none → s'.src.term = none := by
      intro ops s s' rs h ht
      obtain ⟨q, hq, _⟩ := h.local
      exact hq.term.trans ht
    exact this hs rfl
  have hw : Wp (runOp .peek) s (fun t s' => ∃ c p l pos r, At st bytes True c s ∧ c.emn = false ∧ CanPeek st c ∧ isValue p = true ∧ t = .type (typeOf p) ∧ s' = stp st c pos (some p) r ∧
      InvP st bytes True c p l pos r ∧ Abs.mu s' ≤ Abs.mu s) (fun _ _ => True) := by
    unfold InvT at hI
    rw [noTerm_of_none hterm] at hI
    cases hI with
    | @«at» c _ hA =>
      cases ha : c.mode.allowed st.allowMultipleTopLevel .peek with
      | true =>
        obtain ⟨he, hc⟩ := Abs.canValue_iff.1 ha
        refine Wp.bind' ((Abs.peek_wp (K := fun _ => True) hA hc he).mono (fun _ _ h => h) fun _ _ _ => trivial) ?_
        rintro _ _ ⟨p, l, pos, r, hv, rfl, rfl, hP, hm⟩
        exact Wp.pure ⟨c, p, l, pos, r, hA, he, hc, hv, rfl, rfl, hP, hm⟩
      | false => exact (Abs.not_allowed_panics hA.looks ha nofun).wp (E := fun _ _ => True) fun _ _ => trivial
    | @active c l pos r x y h1 h2 h3 h4 => exact (Abs.active_panics (m := c.mode) (b := st.allowMultipleTopLevel) rfl rfl).wp (E := fun _ _ => True) fun _ _ => trivial
  unfold Wp at hw
  cases hm : (runOp .peek).run s with
  | err e s' => rw [runOps, hm] at h2; simp at h2
  | ok o s' =>
    rw [hm] at hw
    obtain ⟨c, p, l, pos, r, hA, he, hc, hv, rfl, rfl, hP, hmu⟩ := hw
    rw [runOps_cons_ok hm nofun] at h2
    simp only [List.cons.injEq, Except.ok.injEq, Out.type.injEq] at h2
    obtain ⟨rfl, h2⟩ := h2
    have hpos : P = currentPosition (stp st c pos (some p) r) false := by
      have : runOps [.currentPosition false] (stp st c pos (some p) r) = [.ok (.position (currentPosition (stp st c pos (some p) r) false))] := rfl
      rw [this] at h2
      simpa using h2.symm
    obtain ⟨_, hb, hpo⟩ := hP.good trivial
    obtain ⟨o, hpk⟩ := looked rfl hm
    have ho : o = some p := by
      have := hpk.run'
      rw [Abs.pio_pk] at this
      cases this
      rfl
    subst ho
    refine ⟨c, s, p, l, pos, r, hs, hA, he, hc, hP, hv, rfl, ?_, ⟨hpk.run, rfl, hpk.emn, hpk.stack, hpk.isEmpty, rfl, hpk.sra.symm, hpk.settings⟩, hmu, hpos⟩
    rw [← h.rest, hpos]
    show bytes.drop pos.byte = _
    rw [hpo, Abs.posOf_eq, hb, ← List.append_assoc, List.drop_left]

/-- a token which has been peeked is the one in front of which the reader was -/
theorem peekTo_unique {p q : Peeked} {s s1 s2 : St} (h1 : Abs.PeekTo p s s1) (h2 : Abs.PeekTo q s s2) : p = q ∧ s1 = s2 := by
  have := h1.run.symm.trans h2.run
  cases this
  exact ⟨rfl, rfl⟩

theorem front_string {c : Ctx} {s : St} {l : Abs.Lead} {pos : Abs.Pos} {x : Str} {r : Bytes} (h : At st bytes True c s) (hm : Abs.mu (stp st c pos (some .stringStart) (tailOf (.str x) ++ r)) ≤ Abs.mu s)
    (hP : InvP st bytes True c .stringStart l pos (tailOf (.str x) ++ r)) (hx : x.Ok) : Front st c s l (.str x) pos r := by
  obtain ⟨hok, hi, hpos⟩ := hP.good trivial
  cases h with
  | @n pos0 r0 h =>
    obtain ⟨_, ⟨h1, h2⟩ | ⟨h1, h2, _⟩⟩ := h.good trivial
    · rw [h1] at hi
      have hi := List.append_cancel_left hi
      have hb : (Cst.str x).bytes = tokBytes .stringStart ++ tailOf (.str x) := start_tail _
      have : r0 = l.bytes ++ ((Cst.str x).bytes ++ r) := by rw [hi, hb, List.append_assoc]
      subst this
      have hp : pos = pos0.over l.bytes := by rw [hpos, h2, Abs.posOf_over (Abs.Ctx.noCr hok).noSplit]
      rw [hp]
      exact Front.of_none (v := .str x) hP.lead hx nofun
    · subst h1
      simp [Abs.mu, stp] at hm
  | @p p l0 pos0 r0 h =>
    obtain ⟨_, h1, h2⟩ := h.good trivial
    rw [h1] at hi
    have hi := List.append_cancel_left hi
    obtain ⟨rfl, rfl⟩ := tok_unique h.lead hP.lead h.follow hP.follow hi
    have hll : l0.bytes = l.bytes := List.append_cancel_right hi
    have hp : pos0 = pos := by rw [h2, hpos, hll]
    rw [hp]
    exact Front.of_peeked (v := .str x) hP.lead hx nofun

mutual
theorem nums_iff {cfg : Cfg} {Q : Bytes → Prop} : (v : Cst) → v.Ok cfg → (v.Nums Q ↔ Numbers Q v.value)
  | .null, _ => by rw [Cst.Nums, Cst.value, Numbers] <;> nofun
  | .bool _, _ => by rw [Cst.Nums, Cst.value, Numbers] <;> nofun
  | .num bs, h => by
    have h : IsNumber bs := h
    rw [Cst.Nums, Cst.value, Numbers, Abs.asciiText_enc (Abs.isNumber_plain h)]
  | .str _, _ => by rw [Cst.Nums, Cst.value, Numbers] <;> nofun
  | .arr is, h => by rw [Cst.Nums, Cst.value, Numbers]; exact nums_items true is h
  | .obj ms, h => by rw [Cst.Nums, Cst.value, Numbers]; exact nums_members true ms h
theorem nums_items {cfg : Cfg} {Q : Bytes → Prop} (first : Bool) : (is : Items) → is.Ok cfg first → (is.Nums Q ↔ WSpec.NumbersItems Q is.values)
  | .nil _, _ => by rw [Items.Nums, Items.values, WSpec.NumbersItems]
  | .cons _ v rest, h => by rw [Items.Nums, Items.values, WSpec.NumbersItems, nums_iff v h.2.1, nums_items false rest h.2.2]
theorem nums_members {cfg : Cfg} {Q : Bytes → Prop} (first : Bool) : (ms : Members) → ms.Ok cfg first → (ms.Nums Q ↔ WSpec.NumbersMembers Q ms.values)
  | .nil _, _ => by rw [Members.Nums, Members.values, WSpec.NumbersMembers]
  | .cons _ _ _ _ v rest, h => by rw [Members.Nums, Members.values, WSpec.NumbersMembers, nums_iff v h.2.2.2.2.1, nums_members false rest h.2.2.2.2.2]
end

/-- the value has no number which is rejected by the number restriction of the reader -/
def Supported (st : Settings) (v : JVal) : Prop := Numbers (fun bs => ¬ (st.restrictNumberValues = true ∧ UnsupportedNumber bs)) v

theorem supported_iff {v : Cst} (h : v.Ok (cfgOf st)) : v.Nums (fun bs => ¬ Restricted st bs) ↔ Supported st v.value := by
  rw [nums_iff v h]
  unfold Supported
  have : (fun bs => ¬ Restricted st bs) = fun bs => ¬ (st.restrictNumberValues = true ∧ UnsupportedNumber bs) := by
    funext bs
    rw [Abs.restricted_iff]
  rw [this]

/-- `bs` is a value which denotes `v`, according to the syntax enabled for the reader -/
def DenotesValue (st : Settings) (bs : Bytes) (v : JVal) : Prop := ∃ x : Cst, x.Ok (cfgOf st) ∧ x.bytes = bs ∧ x.value = v

/-- `transfer_to` has the effect of `skip_value` for the reader and of the individual calls for the value `v` for the writer: the results of all calls are the same,
as well as panics and the output -/
def SameAsCalls (N : Nat) (st : Settings) (sched : List ReadEvent) (pre post : List Op) (M : Nat) (wst : WSettings) (sink : Sink) (wpre wpost : List WOp) (v : JVal) : Prop :=
    ∃ rr, runReader N st sched (pre ++ .skipValue :: post) = runReader N st sched pre ++ .ok .unit :: rr ∧
      ((∃ r1 r3 sk sk', execW M wst sink (wpre ++ (calls v ++ wpost)) = (.ok (r1 ++ (List.replicate (calls v).length (.ok .unit) ++ r3)), sk) ∧ r1.length = wpre.length ∧
          runTransfer N st sched pre post M wst sink wpre wpost = some (.ok ⟨r1, some (.ok ()), r3, rr⟩, sk') ∧
          (wpost.getLast? = some .finishDocument → sk'.received = sk.received)) ∨
        ∃ p sk sk', execW M wst sink (wpre ++ (calls v ++ wpost)) = (.error p, sk) ∧ runTransfer N st sched pre post M wst sink wpre wpost = some (.error p, sk'))

/-- `transfer_to` fails with an error of the reader for which `E` holds; the calls of the writer in front of it are executed -/
def TransferFails (N : Nat) (st : Settings) (sched : List ReadEvent) (pre post : List Op) (M : Nat) (wst : WSettings) (sink : Sink) (wpre wpost : List WOp) (E : RErr → Prop) : Prop :=
  ∃ e r1 rr sk, E e ∧ r1.length = wpre.length ∧ runTransfer N st sched pre post M wst sink wpre wpost = some (.ok ⟨r1, some (.error (.reader e)), [], rr⟩, sk)

theorem fails_run {s : St} {E : RErr → Prop} (hN : 0 < N) (hM : 0 < M) (hd : Delivers sched bytes none) (hs : Steps pre (new (⟨bytes, none, []⟩ : AbsSrc) st) rs s) (hw : Ready wst wpre w) (hrel : sink.Reliable)
    (hX : ∀ c x, JW wst w c x → (transferTo.run (s, c)).Walk False (fun r _ => ∃ e, r.1 = .error (.reader e) ∧ E e) x) : TransferFails N st sched pre post M wst sink wpre wpost E := by
  obtain ⟨c1, r1, w', hl, hok, hi, hres, he, hb⟩ := Writer.reach wst hw.finish hw.ops hw.steps
  have hww := like_eq hl hw.can.1
  subst hww
  have hc := clean_wops wpre (WInv.new wst) (WOk.empty wst) hw.ops hw.finish hw.steps hw.can.1 he hres
  obtain ⟨⟨q, s', c'⟩, bs, hid, e, hq, hE⟩ := (hX c1 _ ⟨hi, hok, rfl⟩).ideal
  dsimp only at hq
  subst hq
  have hideal : ((transferOps wpre wpost s).run (Core.new wst)).ideal.1 = .ok (.ok ⟨r1, some (.error (.reader e)), [], s'⟩, c') := by
    unfold transferOps
    unfold Emits at he
    rw [T.run_bind, ideal_bind, he]
    dsimp only
    rw [if_neg (by rw [hc]; decide), T.run_bind, ideal_bind]
    unfold transferCall
    dsimp only
    rw [ideal_bind, hid]
    rfl
  refine ⟨e, r1, if e.fatal then [] else runOps post s', ?_⟩
  have hr : runTransfer N st sched pre post M wst sink wpre wpost = finishRun post (((transferOps wpre wpost s).run (Core.new wst)).run.run (BufSink.new M sink)) := by
    rw [runTransfer_abs hN, (delivers_sched hd).1, (delivers_sched hd).2]
    unfold runTransferAbs
    rw [stateAfter_steps hs]
  rw [hr]
  have hq := run_spec (quiet_transferOps wpre wpost s (Core.new wst)) (new_good (s := sink) hM)
  rcases hq with ⟨q1, _⟩ | ⟨q1, _⟩
  rotate_left
  · exact absurd hrel q1
  rw [hideal] at q1
  generalize ((transferOps wpre wpost s).run (Core.new wst)).run.run (BufSink.new M sink) = x at q1 ⊢
  match x, q1 with
  | .ok (.ok t, c) kk, q1 =>
    injection q1 with q1
    injection q1 with q1 _
    injection q1 with q1
    subst q1
    exact ⟨kk.sink, hE, resOks_length hres, rfl⟩
  | .ok (.error e, _) _, _ => exact nomatch e
  | .err p k, q1 => cases q1

theorem moves_front {c : Ctx} {s : St} {l : Abs.Lead} {v : Cst} {pos : Abs.Pos} {r : Bytes} (hN : 0 < N) (hd : Delivers sched bytes none) (hs : Steps pre (new (⟨bytes, none, []⟩ : AbsSrc) st) rs s)
    (h : Front st c s l v pos r) (hr : Readable st c v) (hw : Ready wst wpre w) : Moves N st sched pre post M wst wpre w v.value := by
  refine moves_of hN hd (stateAfter_steps hs) (fun tail => ?_) (h.skipValue hr.2) (jok_value v h.ok) (fun c1 hi hok hc => ?_) hw
  · rw [hs.runOps, steps_results hs]
  · exact Transfer.Front.transferTo h hr.2 hr.1 hi hok hc

/-- errors because of the data, the settings or the kind of the data -/
def NotBad (e : RErr) : Prop := (∀ p, e ≠ .panic p) ∧ e ≠ .outOfFuel

theorem transfer_fails {c : Ctx} {s : St} (hN : 0 < N) (hM : 0 < M) (hd : Delivers sched bytes none) (hs : Steps pre (new (⟨bytes, none, []⟩ : AbsSrc) st) rs s) (h : At st bytes True c s) (hc : CanPeek st c)
    (he : c.emn = false) (hw : Ready wst wpre w) (hrel : sink.Reliable) (hno : ∀ l v pos r, Front st c s l v pos r → ¬ Readable st c v) :
    TransferFails N st sched pre post M wst sink wpre wpost NotBad := by
  refine fails_run hN hM hd hs hw hrel fun c1 x hI => ?_
  refine (transferTo_wp (dev := False) h hc he hw.can c1 x (.inr hI)).mono ?_
  rintro ⟨q, s', c'⟩ x' hf
  match q, hf with
  | .ok _, ⟨I, ⟨v, h1, h2, _⟩, _⟩ =>
    obtain ⟨l, pos, r, hF, _⟩ := front_of_post h h2
    exact absurd h1 (hno l v pos r hF)
  | .error (.reader e), hf =>
    have hf : Abs.EOk st bytes True (fun _ => True) e s' := hf
    refine ⟨e, rfl, ?_, ?_⟩
    · rintro p rfl; exact hf
    · rintro rfl; exact hf
  | .error (.writer _), hf => exact hf.elim

/-- the value in front of the reader is unique -/
theorem front_unique {c : Ctx} {s : St} {l l' : Abs.Lead} {v v' : Cst} {pos pos' : Abs.Pos} {r r' : Bytes} (h : Front st c s l v pos r) (h' : Front st c s l' v' pos' r') (hf : Fits st c v.depth)
    (hf' : Fits st c v'.depth) : v.value = v'.value ∧ v.bytes = v'.bytes ∧ r = r' := by
  have h1 := (h.skipValue hf).symm.trans (h'.skipValue hf')
  injection h1 with _ h1
  have hr : r = r' := congrArg (fun s : St => s.src.rest) h1
  obtain ⟨hp, hst⟩ := peekTo_unique h.peek h'.peek
  have ht : tailOf v ++ r = tailOf v' ++ r' := congrArg (fun s : St => s.src.rest) hst
  subst hr
  have ht := List.append_cancel_right ht
  have hb : v.bytes = v'.bytes := by rw [start_tail, start_tail v', hp, ht]
  have doc : ∀ {u : Cst}, u.Ok (cfgOf st) → IsDoc (cfgOf st) u.bytes u.value := fun {u} hu =>
    ⟨⟨[], u, ⟨[], none⟩⟩, ⟨by simp [Ws.Ok], hu, by simp [Ws.Ok], nofun⟩, by simp [Doc.bytes, Ws.bytes, TrailWs.bytes], rfl⟩
  exact ⟨C11_unique_value (cfgOf st) _ _ (doc h.ok) (hb ▸ doc h'.ok), hb, rfl⟩

theorem depth_fits {c : Ctx} {s : St} {l : Abs.Lead} {v : Cst} {pos : Abs.Pos} {r : Bytes} {s' : St} (hA : At st bytes True c s) (h : Front st c s l v pos r) (hm : (skipValue : R AbsSrc Unit).run s = .ok () s') :
    Fits st c v.depth := by
  intro n hn
  have hle := hA.depth n hn
  cases hd : v.deepAt (n - c.stack.length) with
  | none =>
    have := (Abs.deepAt_none _ v).1 hd
    omega
  | some p =>
    obtain ⟨c', q, r', hx, _⟩ := h.skipValue_deep hn hle hd
    rw [hm] at hx
    cases hx

/-- C24, for arbitrary data: if `skip_value` succeeds then it has skipped a value, and `transfer_to` writes this value, unless one of its numbers is rejected by the
number restriction of the reader (`skip_value` does not apply it): then it fails. -/
theorem C24_any_ok (hN : 0 < N) (hM : 0 < M) (h : AtValue N st sched bytes pre rs vt P rest) (hskip : runReader N st sched (pre ++ [.skipValue]) = rs ++ [.ok .unit]) :
    ∃ bs r v P', rest = bs ++ r ∧ DenotesValue st bs v ∧ P'.dataPos = P.dataPos + bs.length ∧
      runReader N st sched (pre ++ [.skipValue, .currentPosition false]) = rs ++ [.ok .unit, .ok (.position P')] ∧
      ∀ post wst wpre w wpost sink, Ready wst wpre w → (∀ op ∈ wpost, OpOk op) → FinishLast wpost → sink.Reliable →
        (Supported st v → SameAsCalls N st sched pre post M wst sink wpre wpost v) ∧ (¬ Supported st v → TransferFails N st sched pre post M wst sink wpre wpost NotBad) := by
  obtain ⟨c, s, p, l, pos, r, hs, hA, he, hc, hP, hv, rfl, hrest, hpk, hmu, hpos⟩ := place hN h
  have hskip' : runOps [.skipValue] s = [.ok .unit] := by
    rw [runReader_abs hN h.delivers] at hskip
    exact List.append_cancel_left ((hs.runOps _).symm.trans hskip)
  have hw := Abs.skipValue_wp hA hc he
  unfold Wp at hw
  rw [runOps_one] at hskip'
  cases hm : (skipValue : R AbsSrc Unit).run s with
  | err e s' =>
    rw [show (runOp .skipValue : R AbsSrc Out).run s = .err e s' from _root_.Verif.M.bind_err hm] at hskip'
    cases hskip'
  | ok a s' =>
    rw [hm] at hw
    obtain ⟨v, hv⟩ := hw
    obtain ⟨l', pos', r', hF, rfl⟩ := front_of_post hA hv
    have hfit := depth_fits hA hF hm
    obtain ⟨rfl, hst⟩ := peekTo_unique hpk hF.peek
    have hr : r = tailOf v ++ r' := congrArg (fun s : St => s.src.rest) hst
    have hbyte : pos.byte = pos'.byte := congrArg (fun s : St => s.bytePos) hst
    refine ⟨v.bytes, r', v.value, currentPosition (behind st c l' v pos' r') false, ?_, ⟨v, hF.ok, rfl, rfl⟩, ?_, ?_, ?_⟩
    · rw [hrest, hr, start_tail v, List.append_assoc]
    · rw [hpos]
      show (pos'.over v.bytes).byte = pos.byte + _
      rw [hbyte]
      exact Abs.posRun_byte v.bytes pos' false
    · rw [runReader_abs hN h.delivers]
      refine (hs.runOps _).trans ?_
      rw [runOps_cons_ok (o := .skipValue) (_root_.Verif.M.bind_ok hm) nofun]
      rfl
    · intro post wst wpre w wpost sink hw hop hfin hrel
      constructor
      · intro hsup
        exact (moves_front (post := post) hN h.delivers hs hF ⟨(supported_iff hF.ok).2 hsup, hfit⟩ hw).transfer hM hw hop hfin hrel
      · intro hsup
        refine transfer_fails hN hM h.delivers hs hA hc he hw hrel fun l2 v2 pos2 r2 hF2 hr2 => hsup ?_
        rw [(front_unique hF hF2 hfit hr2.2).1]
        exact (supported_iff hF2.ok).1 hr2.1

/-- C24, for arbitrary data: if `skip_value` fails then `transfer_to` fails -/
theorem C24_any_fails {e : RErr} (hN : 0 < N) (hM : 0 < M) (h : AtValue N st sched bytes pre rs vt P rest) (hskip : runReader N st sched (pre ++ [.skipValue]) = rs ++ [.error e]) (hw : Ready wst wpre w)
    (hrel : sink.Reliable) : TransferFails N st sched pre post M wst sink wpre wpost NotBad := by
  obtain ⟨c, s, p, l, pos, r, hs, hA, he, hc, hP, hv, rfl, hrest, hpk, hmu, hpos⟩ := place hN h
  have hskip' : runOps [.skipValue] s = [.error e] := by
    rw [runReader_abs hN h.delivers] at hskip
    exact List.append_cancel_left ((hs.runOps _).symm.trans hskip)
  refine transfer_fails hN hM h.delivers hs hA hc he hw hrel fun l2 v2 pos2 r2 hF2 hr2 => ?_
  rw [runOps_one, show (runOp .skipValue : R AbsSrc Out).run s = .ok .unit _ from _root_.Verif.M.bind_ok (hF2.skipValue hr2.2)] at hskip'
  cases hskip'

/-- C08: in front of a string literal `transfer_to` writes the text denoted by it, and leaves the reader behind it (as all ways of reading the string, see
`C07_C08_string_ok`) -/
theorem C08_transfer_ok (hN : 0 < N) (hM : 0 < M) (h : AtValue N st sched bytes pre rs .string P rest) {bs r : Bytes} {t : Text} (hr : rest = bs ++ r) (hl : Literal bs t) (hw : Ready wst wpre w)
    (hop : ∀ op ∈ wpost, OpOk op) (hfin : FinishLast wpost) (hrel : sink.Reliable) : SameAsCalls N st sched pre post M wst sink wpre wpost (.str t) := by
  obtain ⟨c, s, p, l, pos, r', hs, hA, he, hc, hP, hv, ht, hrest, hpk, hmu, hpos⟩ := place hN h
  cases Abs.typeOf_string hv ht
  obtain ⟨x, hx, rfl, rfl⟩ := hl
  have hr' : r' = tailOf (.str x) ++ r := by
    rw [hr] at hrest
    simpa [Str.bytes, tailOf, tokBytes] using hrest.symm
  subst hr'
  have hF := front_string hA hmu hP hx
  exact (moves_front (v := .str x) (post := post) hN h.delivers hs hF (Abs.scalar_readable hA rfl trivial) hw).transfer hM hw hop hfin hrel

/-- C08: if the input does not continue with a string literal then `transfer_to` fails because of the data, as all ways of reading the string -/
theorem C08_transfer_malformed (hN : 0 < N) (hM : 0 < M) (h : AtValue N st sched bytes pre rs .string P rest) (hn : ∀ bs r t, rest = bs ++ r → ¬ Literal bs t) (hw : Ready wst wpre w)
    (hrel : sink.Reliable) : TransferFails N st sched pre post M wst sink wpre wpost Malformed := by
  obtain ⟨c, s, p, l, pos, r, hs, hA, he, hc, hP, hv, ht, rfl, hpk, hmu, hpos⟩ := place hN h
  cases Abs.typeOf_string hv ht
  have hno : Abs.NoString r := fun x r' hx he => hn x.bytes r' x.text (by rw [he]; simp [Str.bytes, tokBytes]) ⟨x, hx, rfl, rfl⟩
  refine fails_run hN hM h.delivers hs hw hrel fun c1 x hI => ?_
  refine (transferTo_badString (dev := False) hpk he (hA.emn.trans he) hw.can hno c1 x (.inr hI)).mono ?_
  rintro ⟨q, s', c'⟩ x' hf
  match q, hf with
  | .ok _, ⟨I, h, _⟩ => exact h.elim
  | .error (.reader e), hf => exact ⟨e, rfl, malformed_of hf⟩
  | .error (.writer _), hf => exact hf.elim

/-! ## Examples -/

/-- `[1, "\x" ]` (`exBad`): the string is transferred to a writer inside of an object; `C08_transfer_malformed`, `C24_any_fails`, `C02_transfer_partial`, `C29_transfer_ends` -/
example : (match runTransfer 3 Settings.default (single [91, 49, 44, 32, 34, 92, 120, 34, 32, 93]) [.beginArray, .nextNumberAsStr] [.endArray] 2 .default ⟨[], [.accept 1, .interrupted], []⟩ exWpre [.endObject] with
    | some (.ok ⟨[_, _, _], some (.error (.reader (.syntax .unknownEscapeSequence _))), [], []⟩, _) => true
    | _ => false) = true := by
  decide +kernel

/-- the underlying `Write` fails during the transfer; the reader is used afterwards -/
example : (match runTransfer 3 Settings.default (single [91, 49, 44, 32, 34, 97, 98, 99, 100, 34, 32, 93]) [.beginArray, .nextNumberAsStr] [.currentPosition false] 2 .default ⟨[], [.accept 2, .accept 2, .accept 2, .error 7], []⟩
      [.beginArray, .boolValue true] [] with
    | some (.ok ⟨[.ok _, .ok _], some (.error (.writer _)), [], [.ok (.position _)]⟩, _) => true
    | _ => false) = true := by
  decide +kernel

/-- `[ 1e1000]`: skipped but not transferred, `C24_any_ok`; the reader may be used afterwards -/
example : runReader 3 Settings.default (single [91, 32, 49, 101, 49, 48, 48, 48, 93]) ([.beginArray] ++ [.skipValue]) = [.ok .unit] ++ [.ok .unit] ∧
    (match runTransfer 3 Settings.default (single [91, 32, 49, 101, 49, 48, 48, 48, 93]) [.beginArray] [.hasNext] 2 .default ⟨[], [], []⟩ [] [.finishDocument] with
    | some (.ok ⟨[], some (.error (.reader (.unsupportedNumberValue _ _))), [], [_]⟩, _) => true
    | _ => false) = true := by
  decide +kernel

/-- `C24_any_ok`, `C08_transfer_ok`: `[1, "aé\n" x` (malformed behind the string) -/
example : AtValue 3 Settings.default (single [91, 49, 44, 32, 34, 97, 92, 117, 48, 48, 101, 57, 92, 110, 34, 32, 120]) [91, 49, 44, 32, 34, 97, 92, 117, 48, 48, 101, 57, 92, 110, 34, 32, 120] [.beginArray, .nextNumberAsStr]
      [.ok .unit, .ok (.text ['1'])] .string ⟨none, 0, 4, 4⟩ ([34, 97, 92, 117, 48, 48, 101, 57, 92, 110, 34] ++ [32, 120]) ∧
    (match runTransfer 3 Settings.default (single [91, 49, 44, 32, 34, 97, 92, 117, 48, 48, 101, 57, 92, 110, 34, 32, 120]) [.beginArray, .nextNumberAsStr] [.hasNext] 2 .default ⟨[], [], []⟩ [] [.finishDocument] with
    | some (.ok ⟨[], some (.ok ()), [.ok .unit], [.error (.syntax _ _)]⟩, sk) => sk.received == [34, 97, 0xC3, 0xA9, 92, 110, 34]
    | _ => false) = true :=
  ⟨⟨single_delivers _, rfl, by simp, by decide +kernel, rfl⟩, by decide +kernel⟩

/-- `C29_transfer_progress` -/
example : runReader 3 Settings.default (single [91, 49, 44, 32, 34, 97, 34, 32, 93]) ([.beginArray, .nextNumberAsStr] ++ [.currentPosition false]) =
      [.ok .unit, .ok (.text ['1'])] ++ [.ok (.position ⟨none, 0, 2, 2⟩)] ∧
    (match runTransfer 3 Settings.default (single [91, 49, 44, 32, 34, 97, 34, 32, 93]) [.beginArray, .nextNumberAsStr] [.currentPosition false] 2 .default ⟨[], [], []⟩ [] [] with
    | some (.ok ⟨[], some (.ok ()), [], r⟩, _) => r == [.ok (.position ⟨none, 0, 7, 7⟩)]
    | _ => false) = true := by
  decide +kernel

/-- `C28_transfer`: in an object in front of a name -/
example : ((Mode.init.after [.beginObject] (runReader 3 Settings.default (single [123, 34, 97, 34, 58, 49, 125]) [.beginObject])).map fun m => m.allowed false .skipValue) = some false ∧
    (match runTransfer 3 Settings.default (single [123, 34, 97, 34, 58, 49, 125]) [.beginObject] [] 2 .default ⟨[], [], []⟩ [] [] with
    | some (.ok ⟨[], some (.error (.reader (.panic (.usage _)))), [], []⟩, _) => true
    | _ => false) = true := by
  decide +kernel

end Verif.Props
