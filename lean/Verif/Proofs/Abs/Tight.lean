import Verif.Proofs.Abs.Steps
/-!
# Computations which do not look at the byte behind the consumed bytes

`Tight l K s m m'`: if `m` is successful in the state `s`, with a result and a state for which `K` holds, then it consumes `q ≥ l` bytes and depends on nothing but these bytes (`m'` is
the same computation, possibly with other fuel). In contrast to `Loc` not even the byte number `q + 1` matters.
-/

namespace Verif.Abs
open Reader

def Tight {α : Type} (l : Nat) (K : α → St → Prop) (s : St) (m m' : R AbsSrc α) : Prop := ∀ a s', m.run s = .ok a s' → K a s' →
  ∃ q, l ≤ q ∧ Ate q s s' ∧ ∀ r t, r.take q = s.src.rest.take q → Fin (m'.run (cutSt s r t)) (.ok a (cutSt s' (r.drop q) t))

/-- no condition -/
abbrev Any {α : Type} : α → St → Prop := fun _ _ => True

section
variable {α β : Type} {m m' : R AbsSrc α} {f f' : α → R AbsSrc β} {s : St} {l l1 l2 : Nat} {K : α → St → Prop} {K1 : α → St → Prop} {K2 : β → St → Prop}

theorem Tight.mono (h : Tight l1 K s m m') (hl : l ≤ l1) : Tight l K s m m' := fun a s' hr hk => by
  obtain ⟨q, h1, h2⟩ := h a s' hr hk
  exact ⟨q, Nat.le_trans hl h1, h2⟩

theorem Tight.of (h : ∀ a s', m.run s = .ok a s' → K a s' → Tight l K s m m') : Tight l K s m m' := fun a s' hr hk => h a s' hr hk a s' hr hk

theorem Tight.weaken {K' : α → St → Prop} (h : Tight l K s m m') (hk : ∀ a s', m.run s = .ok a s' → K' a s' → K a s') : Tight l K' s m m' := fun a s' hr hk' => h a s' hr (hk a s' hr hk')

theorem Tight.bindK (h : Tight l1 K1 s m m') (hk : ∀ a s1 b s2, m.run s = .ok a s1 → (f a).run s1 = .ok b s2 → K2 b s2 → K1 a s1)
    (hf : ∀ a s1, m.run s = .ok a s1 → Tight l2 K2 s1 (f a) (f' a)) : Tight (l1 + l2) K2 s (m >>= f) (m' >>= f') := by
  intro b s2 hr hb
  rw [M.run_bind] at hr
  cases hm : m.run s with
  | err e s1 => rw [hm] at hr; cases hr
  | ok a s1 =>
    rw [hm] at hr
    dsimp only at hr
    obtain ⟨q1, h1, h2, h3⟩ := h a s1 hm (hk a s1 b s2 hm hr hb)
    obtain ⟨q2, h4, h5, h6⟩ := hf a s1 hm b s2 hr hb
    refine ⟨q1 + q2, by omega, h2.trans h5, fun r t ha => ?_⟩
    have ha1 : r.take q1 = s.src.rest.take q1 := by
      have := congrArg (List.take q1) ha
      rwa [List.take_take, List.take_take, Nat.min_eq_left (by omega)] at this
    have ha2 : (r.drop q1).take q2 = s1.src.rest.take q2 := by
      have := congrArg (List.drop q1) ha
      rw [List.drop_take, List.drop_take, show q1 + q2 - q1 = q2 by omega] at this
      rw [h2.rest]
      exact this
    rcases h3 r t ha1 with h | ⟨s3, h⟩
    · rw [M.bind_ok h, ← List.drop_drop]
      exact h6 _ _ ha2
    · exact .inr ⟨s3, M.bind_err h⟩

theorem Tight.bind (h : Tight l1 Any s m m') (hf : ∀ a s1, m.run s = .ok a s1 → Tight l2 K2 s1 (f a) (f' a)) : Tight (l1 + l2) K2 s (m >>= f) (m' >>= f') :=
  h.bindK (fun _ _ _ _ _ _ _ => trivial) hf

theorem Tight.bind0 (h : Tight 0 Any s m m') (hf : ∀ a s1, m.run s = .ok a s1 → Tight l K2 s1 (f a) (f' a)) : Tight l K2 s (m >>= f) (m' >>= f') :=
  (h.bind hf).mono (by omega)

/-- if something is consumed at the end then looking ahead does not matter before -/
theorem Tight.after (h : LocAt s m m') (hf : ∀ a s1, m.run s = .ok a s1 → Tight 1 K2 s1 (f a) (f' a)) : Tight 1 K2 s (m >>= f) (m' >>= f') := by
  intro b s2 hr hb
  rw [M.run_bind] at hr
  unfold LocAt at h
  cases hm : m.run s with
  | err e s1 => rw [hm] at hr; cases hr
  | ok a s1 =>
    rw [hm] at hr h
    dsimp only at hr h
    obtain ⟨q1, h2, _, h3⟩ := h
    change Ate q1 s s1 at h2
    change ∀ r t, Agree q1 s r t → Fin (m'.run (cutSt s r t)) (.ok a (cutSt s1 (r.drop q1) t)) at h3
    obtain ⟨q2, h4, h5, h6⟩ := hf a s1 hm b s2 hr hb
    refine ⟨q1 + q2, by omega, h2.trans h5, fun r t ha => ?_⟩
    have hle := (h2.trans h5).le
    have ha1 : Agree q1 s r t := by
      refine ⟨?_, fun hl => absurd hl (by omega)⟩
      have := congrArg (List.take (q1 + 1)) ha
      rwa [List.take_take, List.take_take, Nat.min_eq_left (by omega)] at this
    have ha2 : (r.drop q1).take q2 = s1.src.rest.take q2 := by
      have := congrArg (List.drop q1) ha
      rw [List.drop_take, List.drop_take, show q1 + q2 - q1 = q2 by omega] at this
      rw [h2.rest]
      exact this
    rcases h3 r t ha1 with h | ⟨s3, h⟩
    · rw [M.bind_ok h, ← List.drop_drop]
      exact h6 _ _ ha2
    · exact .inr ⟨s3, M.bind_err h⟩

theorem Tight.oof : Tight l K s (M.fail .outOfFuel : R AbsSrc α) m' := fun _ _ h => by cases h

theorem Tight.oof' (h : Tight l K s m m') : Tight l K s m (M.fail .outOfFuel) := fun a s' hr hk => by
  obtain ⟨q, h1, h2, _⟩ := h a s' hr hk
  exact ⟨q, h1, h2, fun _ _ _ => .inr ⟨_, rfl⟩⟩

theorem Tight.fails {e : RErr} {s1 : St} (h : m.run s = .err e s1) : Tight l K s m m' := fun a s' hr => by rw [h] at hr; cases hr

theorem Tight.never (h : ∀ a s', m.run s = .ok a s' → ¬ K a s') : Tight l K s m m' := fun a s' hr hk => absurd hk (h a s' hr)

theorem Tight.pure {a : α} : Tight 0 K s (pure a : R AbsSrc α) (pure a) := fun a' s' hr _ => by
  cases hr
  exact ⟨0, Nat.le_refl _, .zero rfl rfl, fun _ _ _ => .inl rfl⟩

theorem Tight.unwrap {o : Option α} : Tight 0 K s (Reader.unwrap o : R AbsSrc α) (Reader.unwrap o) := by
  cases o
  · exact .fails rfl
  · exact .pure

theorem Tight.ite {c : Prop} [Decidable c] {m1 m1' m2 m2' : R AbsSrc α} (h1 : c → Tight l K s m1 m1') (h2 : ¬ c → Tight l K s m2 m2') : Tight l K s (if c then m1 else m2) (if c then m1' else m2') := by
  split
  · exact h1 ‹_›
  · exact h2 ‹_›

theorem Tight.get {f f' : St → R AbsSrc β} {K : β → St → Prop} (h : ∀ r t, Tight l K s (f s) (f' (cutSt s r t))) : Tight l K s (M.get >>= f) (M.get >>= f') := by
  intro b s' hr hk
  rw [run_get] at hr
  obtain ⟨q, h1, h2, _⟩ := h s.src.rest s.src.term b s' hr hk
  refine ⟨q, h1, h2, fun r t ha => ?_⟩
  obtain ⟨q', h1', h2', h3'⟩ := h r t b s' hr hk
  have : q = q' := by
    have e2 := congrArg List.length (h2.rest.symm.trans h2'.rest)
    rw [List.length_drop, List.length_drop] at e2
    have := h2.le
    have := h2'.le
    omega
  subst this
  exact h3' r t ha

theorem Tight.modify {g : St → St} {K : Unit → St → Prop} (h1 : ∀ s, (g s).src = s.src) (h3 : ∀ s r t, g (cutSt s r t) = cutSt (g s) r t) : Tight 0 K s (M.modify g : R AbsSrc Unit) (M.modify g) := by
  intro a s' hr _
  cases hr
  refine ⟨0, Nat.le_refl _, .zero (by show (g s).src.rest = _; rw [h1]) (by show (g s).src.term = _; rw [h1]), fun r t _ => .inl ?_⟩
  show Res.ok () (g (cutSt s r t)) = _
  rw [h3]
  rfl

theorem Tight.consume (g : Bytes → UInt8 → Bytes) {K : Unit → St → Prop} {m : M SrcErr AbsSrc Unit} (hm : ∀ s, m.run s = match s.rest with
    | b :: t => .ok () { s with rest := t, acc := g s.acc b }
    | [] => .err (.panic (.internal .debugAssert)) s) : Tight 1 K s (liftS m) (liftS m) := by
  have h : ∀ s : St, (liftS m : R AbsSrc _).run s = match s.src.rest with
    | b :: t => .ok () { s with src := { s.src with rest := t, acc := g s.src.acc b } }
    | [] => .err (.panic (.internal .debugAssert)) s := by
    intro s
    unfold liftS
    dsimp only
    rw [hm]
    cases s.src.rest <;> rfl
  intro a s' hr _
  rw [h] at hr
  cases hs : s.src.rest with
  | nil => rw [hs] at hr; cases hr
  | cons x r =>
    rw [hs] at hr
    cases hr
    refine ⟨1, Nat.le_refl _, ⟨?_, ?_, rfl⟩, fun r' t' ha => .inl ?_⟩
    · rw [hs]; rfl
    · rw [hs]; exact Nat.succ_le_succ (Nat.zero_le _)
    · rw [h]
      cases r' with
      | nil => simp at ha
      | cons y r' =>
        simp only [List.take_succ_cons, List.take_zero, List.cons.injEq, and_true] at ha
        subst ha
        rfl

theorem Tight.skipPeekedByte {K : Unit → St → Prop} : Tight 1 K s (skipPeekedByte : R AbsSrc _) skipPeekedByte := .consume (fun a _ => a) fun s => by
  obtain ⟨r, t, acc⟩ := s
  cases r <;> rfl
theorem Tight.vConsume {K : Unit → St → Prop} : Tight 1 K s (liftS ByteSource.vConsume : R AbsSrc _) (liftS ByteSource.vConsume) := .consume (fun a b => a ++ [b]) fun s => by
  obtain ⟨r, t, acc⟩ := s
  cases r <;> rfl

theorem Tight.acc {K : Unit → St → Prop} (g : Bytes → Bytes) {m : M SrcErr AbsSrc Unit} (hm : m = M.modify fun s => { s with acc := g s.acc }) : Tight 0 K s (liftS m) (liftS m) := by
  subst hm
  intro a s' hr _
  cases hr
  exact ⟨0, Nat.le_refl _, .zero rfl rfl, fun _ _ _ => .inl rfl⟩

theorem Tight.vSkipFinal {K : Unit → St → Prop} : Tight 0 K s (liftS ByteSource.vSkipFinal : R AbsSrc _) (liftS ByteSource.vSkipFinal) := .acc List.dropLast rfl

theorem Tight.vGet {b : Bool} {K : Unit → St → Prop} : Tight 0 K s (liftS (ByteSource.vGet b) : R AbsSrc _) (liftS (ByteSource.vGet b)) := .acc id rfl

theorem Tight.adv {a b : Nat} {K : Unit → St → Prop} : Tight 0 K s (advance a b : R AbsSrc Unit) (advance a b) := .modify (fun _ => rfl) fun _ _ _ => rfl

theorem Tight.getStr {K : Text → St → Prop} : Tight 0 K s (liftS ByteSource.getStr : R AbsSrc _) (liftS ByteSource.getStr) := by
  have h : ∀ s : St, (liftS ByteSource.getStr : R AbsSrc _).run s = match Utf8.toStrUnchecked s.src.acc with
    | some t => .ok t { s with src := { s.src with acc := [] } }
    | none => .err (.panic (.internal .invalidUtf8)) { s with src := { s.src with acc := [] } } := by
    intro s
    unfold liftS
    dsimp only [ByteSource.getStr]
    unfold AbsSrc.getStr
    dsimp only
    cases Utf8.toStrUnchecked s.src.acc <;> rfl
  intro a s' hr _
  rw [h] at hr
  cases hu : Utf8.toStrUnchecked s.src.acc with
  | none => rw [hu] at hr; cases hr
  | some t =>
    rw [hu] at hr
    cases hr
    refine ⟨0, Nat.le_refl _, .zero rfl rfl, fun r t _ => .inl ?_⟩
    rw [h]
    show (match Utf8.toStrUnchecked s.src.acc with | some t => _ | none => _) = _
    rw [hu]
    rfl

theorem Tight.getString {K : Text → St → Prop} : Tight 0 K s (liftS ByteSource.getString : R AbsSrc _) (liftS ByteSource.getString) := Tight.getStr

theorem Tight.getStrPeek {K : Text → St → Prop} : Tight 0 K s (liftS ByteSource.getStrPeek : R AbsSrc _) (liftS ByteSource.getStrPeek) := by
  have h : ∀ s : St, (liftS ByteSource.getStrPeek : R AbsSrc _).run s = match Utf8.toStrUnchecked s.src.acc with
    | some t => .ok t s
    | none => .err (.panic (.internal .invalidUtf8)) s := by
    intro s
    unfold liftS
    dsimp only [ByteSource.getStrPeek]
    unfold AbsSrc.getStrPeek
    dsimp only
    cases Utf8.toStrUnchecked s.src.acc <;> rfl
  intro a s' hr _
  rw [h] at hr
  cases hu : Utf8.toStrUnchecked s.src.acc with
  | none => rw [hu] at hr; cases hr
  | some t =>
    rw [hu] at hr
    cases hr
    refine ⟨0, Nat.le_refl _, .zero rfl rfl, fun r t _ => .inl ?_⟩
    rw [h]
    show (match Utf8.toStrUnchecked s.src.acc with | some t => _ | none => _) = _
    rw [hu]
    rfl

/-- either something is consumed at the end of the first computation, or in the second one -/
theorem Tight.bindOr (h : ∀ a s1, m.run s = .ok a s1 → (Tight 1 (fun a' _ => a' = a) s m m' ∧ Tight 0 K2 s1 (f a) (f' a)) ∨ (LocAt s m m' ∧ Tight 1 K2 s1 (f a) (f' a))) :
    Tight 1 K2 s (m >>= f) (m' >>= f') := by
  refine .of fun b s2 hr hb => ?_
  obtain ⟨a, s1, h1, h2⟩ := M.bind_eq_ok.1 hr
  rcases h a s1 h1 with ⟨h3, h4⟩ | ⟨h3, h4⟩
  · refine (Tight.bindK (l1 := 1) (l2 := 0) h3 (fun a' s1' b' s2' h1' _ _ => ?_) fun a' s1' h1' => ?_).mono (by omega)
    · rw [h1] at h1'; cases h1'; rfl
    · rw [h1] at h1'; cases h1'; exact h4
  · refine .after h3 fun a' s1' h1' => ?_
    rw [h1] at h1'; cases h1'; exact h4

end

/-! ## Strings -/

section
variable {s : St}

theorem tight_readByte {k : SyntaxKind} {K : UInt8 → St → Prop} : Tight 1 K s (readByte k : R AbsSrc _) (readByte k) := by
  unfold readByte
  refine .after (Loc.peekByte s) fun o s1 _ => ?_
  cases o with
  | none => exact .fails rfl
  | some b => exact (Tight.skipPeekedByte.bind (l2 := 0) fun _ _ _ => .pure).mono (by omega)

theorem tight_vReadByte {k : SyntaxKind} {K : UInt8 → St → Prop} : Tight 1 K s (vReadByte k : R AbsSrc _) (vReadByte k) := by
  unfold vReadByte
  refine .after (Loc.vPeek s) fun o s1 _ => ?_
  cases o with
  | none => exact .fails rfl
  | some b => exact (Tight.vConsume.bind (l2 := 0) fun _ _ _ => .pure).mono (by omega)

theorem tight_readStringLoop {b : Bool} : ∀ n n' (s : St), Tight 1 Any s (readStringLoop b n : R AbsSrc _) (readStringLoop b n') := by
  have hs : ∀ n n', (∀ s, Tight 1 Any s (readStringLoop b n : R AbsSrc _) (readStringLoop b n')) → ∀ s, Tight 1 Any s (readStringLoop b (n + 1) : R AbsSrc _) (readStringLoop b (n' + 1)) := by
    intro n n' ih s
    unfold readStringLoop
    refine (tight_vReadByte.bind (l2 := 0) fun c s1 _ => ?_).mono (by omega)
    refine .ite (fun _ => ?_) fun _ => .ite (fun _ => ?_) fun _ => .ite (fun _ => .fails rfl) fun _ => .ite (fun _ => ?_) fun _ => ?_
    · exact (Tight.after (loc_readStringEscape s1) fun _ s2 _ => ih s2).mono (by omega)
    · exact Tight.adv.bind0 fun _ _ _ => Tight.vSkipFinal.bind0 fun _ _ _ => .vGet
    · exact Tight.adv.bind0 fun _ s2 _ => (ih s2).mono (by omega)
    · exact (Tight.after (loc_multibyte (fun k => @loc_vReadByte k) s1) fun bs s2 _ => Tight.adv.bind0 fun _ s3 _ => ih s3).mono (by omega)
  intro n
  induction n with
  | zero => intro n' s; unfold readStringLoop; exact .oof
  | succ n ih =>
    intro n' s
    cases n' with
    | zero =>
      have := (hs n n (ih n) s).oof'
      rw [show (readStringLoop b 0 : R AbsSrc _) = M.fail .outOfFuel by rw [readStringLoop]]
      exact this
    | succ n' => exact hs n n' (ih n') s

theorem tight_readString {b : Bool} : Tight 1 Any s (readString b : R AbsSrc _) (readString b) := by
  unfold readString
  exact .after (Loc.vNew s) fun _ s1 _ => .get fun r t => tight_readStringLoop _ _ _

theorem tight_skipAllStringBytesLoop : ∀ n n' (s : St), Tight 1 Any s (skipAllStringBytesLoop n : R AbsSrc _) (skipAllStringBytesLoop n') := by
  have hs : ∀ n n', (∀ s, Tight 1 Any s (skipAllStringBytesLoop n : R AbsSrc _) (skipAllStringBytesLoop n')) → ∀ s, Tight 1 Any s (skipAllStringBytesLoop (n + 1) : R AbsSrc _) (skipAllStringBytesLoop (n' + 1)) := by
    intro n n' ih s
    unfold skipAllStringBytesLoop
    refine .bindOr fun a s1 h => ?_
    obtain ⟨e, bs⟩ := a
    cases e with
    | false => exact .inr ⟨loc_readStringBytes s, ih s1⟩
    | true =>
      refine .inl ⟨?_, .pure⟩
      clear h
      unfold readStringBytes
      have hf : ∀ (l : Nat) (s : St) (m m' : R AbsSrc Bytes), Tight l (fun (a' : Bool × Bytes) _ => a' = (true, bs)) s (m >>= fun x => pure (false, x)) (m' >>= fun x => pure (false, x)) := by
        intro l s m m'
        refine .never fun a s' hr => ?_
        obtain ⟨x, s1, _, h2⟩ := M.bind_eq_ok.1 hr
        cases h2
        nofun
      refine (tight_readByte.bind (l2 := 0) fun c s1 _ => ?_).mono (by omega)
      refine .ite (fun _ => ?_) fun _ => .ite (fun _ => ?_) fun _ => .ite (fun _ => .fails rfl) fun _ => .ite (fun _ => ?_) fun _ => ?_
      · refine .never fun a s' hr => ?_
        obtain ⟨c', s2, _, h2⟩ := M.bind_eq_ok.1 hr
        cases hc : simpleEscape c' with
        | some x =>
          rw [hc] at h2
          obtain ⟨_, s3, _, h3⟩ := M.bind_eq_ok.1 h2
          cases h3; nofun
        | none =>
          rw [hc] at h2
          dsimp only at h2
          split at h2
          · obtain ⟨⟨_, _⟩, s3, _, h3⟩ := M.bind_eq_ok.1 h2
            obtain ⟨_, s4, _, h4⟩ := M.bind_eq_ok.1 h3
            cases h4; nofun
          · cases h2
      · exact Tight.adv.bind0 fun _ _ _ => .pure
      · refine .never fun a s' hr => ?_
        obtain ⟨_, s2, _, h2⟩ := M.bind_eq_ok.1 hr
        cases h2; nofun
      · refine .never fun a s' hr => ?_
        obtain ⟨_, s2, _, h2⟩ := M.bind_eq_ok.1 hr
        obtain ⟨_, s3, _, h3⟩ := M.bind_eq_ok.1 h2
        cases h3; nofun
  intro n
  induction n with
  | zero => intro n' s; unfold skipAllStringBytesLoop; exact .oof
  | succ n ih =>
    intro n' s
    cases n' with
    | zero =>
      have := (hs n n (ih n) s).oof'
      rw [show (skipAllStringBytesLoop 0 : R AbsSrc _) = M.fail .outOfFuel by rw [skipAllStringBytesLoop]]
      exact this
    | succ n' => exact hs n n' (ih n') s

theorem tight_skipAllStringBytes : Tight 1 Any s (skipAllStringBytes : R AbsSrc _) skipAllStringBytes := by
  unfold skipAllStringBytes
  exact .get fun r t => tight_skipAllStringBytesLoop _ _ _

theorem tight_setPathName {n : Text} : Tight 0 Any s (setPathName n : R AbsSrc _) (setPathName n) := by
  rw [setPathName_eq]
  refine .get fun r t => ?_
  dsimp only [cutSt]
  split
  · exact .pure
  · exact .modify (fun _ => rfl) fun _ _ _ => rfl
  · exact .fails rfl
  · exact .fails rfl

theorem tight_onValueEnd : Tight 0 Any s (onValueEnd : R AbsSrc _) onValueEnd := by
  rw [onValueEnd_eq]
  refine .get fun r t => .bind0 ?_ fun _ _ _ => ?_
  · show Tight 0 Any s (match isInArray s, s.path with
      | true, some p =>
        match p with
        | .arrayItem i :: ps => pure (some (.arrayItem (i + 1) :: ps))
        | .objectMember _ :: _ => internalPanic .unreachable
        | [] => internalPanic .unwrapNone
      | _, p => pure p : R AbsSrc _) (match isInArray s, s.path with
      | true, some p =>
        match p with
        | .arrayItem i :: ps => pure (some (.arrayItem (i + 1) :: ps))
        | .objectMember _ :: _ => internalPanic .unreachable
        | [] => internalPanic .unwrapNone
      | _, p => pure p : R AbsSrc _)
    split
    · split
      · exact .pure
      · exact .fails rfl
      · exact .fails rfl
    · exact .pure
  · exact .modify (fun _ => rfl) fun _ _ _ => rfl

theorem tight_consumePeeked : Tight 0 Any s (consumePeeked : R AbsSrc _) consumePeeked := by
  rw [consumePeeked_eq]
  exact .get fun r t => Tight.unwrap.bind0 fun _ _ _ => .modify (fun _ => rfl) fun _ _ _ => rfl

theorem tight_onContainerEnd : Tight 0 Any s (onContainerEnd : R AbsSrc _) onContainerEnd := by
  unfold onContainerEnd
  refine .bind0 ?_ fun _ _ _ => tight_onValueEnd
  exact .modify (fun _ => rfl) fun _ _ _ => rfl

theorem tight_nextString : Tight 1 Any s (nextString : R AbsSrc _) nextString := by
  have h := @loc_start .string false (fun h => by cases h)
  unfold nextString
  exact .after (h s) fun _ _ _ => (tight_readString.bind (l2 := 0) fun _ _ _ => Tight.getString.bind0 fun _ _ _ => tight_onValueEnd.bind0 fun _ _ _ => .pure).mono (by omega)

theorem tight_nextStr : Tight 1 Any s (nextStr : R AbsSrc _) nextStr := by
  have h := @loc_start .string false (fun h => by cases h)
  unfold nextStr
  exact .after (h s) fun _ _ _ => (tight_readString.bind (l2 := 0) fun _ _ _ => tight_onValueEnd.bind0 fun _ _ _ => .getStr).mono (by omega)

theorem tight_nextNameOwned : Tight 1 Any s (nextNameOwned : R AbsSrc _) nextNameOwned := by
  unfold nextNameOwned
  exact .after (loc_beforeName s) fun _ _ _ => (tight_readString.bind (l2 := 0) fun _ _ _ => Tight.getString.bind0 fun _ _ _ => tight_setPathName.bind0 fun _ _ _ => .pure).mono (by omega)

theorem tight_nextName : Tight 1 Any s (nextName : R AbsSrc _) nextName := by
  unfold nextName
  refine .after (loc_beforeName s) fun _ _ _ => (tight_readString.bind (l2 := 0) fun _ _ _ => .get fun r t => Tight.bind0 ?_ fun _ _ _ => .getStr).mono (by omega)
  exact .ite (fun _ => Tight.getStrPeek.bind0 fun _ _ _ => tight_setPathName) fun _ => .pure

theorem tight_skipName : Tight 1 Any s (skipName : R AbsSrc _) skipName := by
  unfold skipName
  refine .after (loc_beforeName s) fun _ _ _ => .get fun r t => .ite (fun _ => ?_) fun _ => tight_skipAllStringBytes
  exact (tight_readString.bind (l2 := 0) fun _ _ _ => Tight.getString.bind0 fun _ _ _ => tight_setPathName).mono (by omega)

/-! ## Peeking -/

/-- tokens which are complete without the byte behind them -/
def isDelim : Peeked → Bool
  | .objectStart | .objectEnd | .arrayStart | .arrayEnd | .stringStart | .nameStart => true
  | _ => false

/-- the byte of a delimiter is consumed -/
def Advances (m : R AbsSrc (Peeked × Bool)) : Prop := ∀ s p s', m.run s = .ok p s' → isDelim p.1 = true → p.2 = true

theorem Advances.ite {c : Prop} [Decidable c] {m1 m2 : R AbsSrc (Peeked × Bool)} (h1 : Advances m1) (h2 : Advances m2) : Advances (if c then m1 else m2) := by
  split
  · exact h1
  · exact h2

theorem Advances.syn {k : SyntaxKind} : Advances (syntaxErr k) := fun _ _ _ h => by cases h
theorem Advances.yes {q : Peeked} : Advances (pure (q, true)) := fun _ _ _ h => by cases h; exact fun _ => rfl

theorem Advances.lit {bs : Bytes} {q : Peeked} (hq : isDelim q = false) : Advances (do consumeLiteral bs; pure (q, false)) := fun _ _ _ h => by
  obtain ⟨_, s1, _, h2⟩ := M.bind_eq_ok.1 h
  cases h2
  intro h
  rw [hq] at h
  cases h

theorem classify_delim {b : UInt8} {s s' : St} {p : Peeked × Bool} (h : (classify b : R AbsSrc _).run s = .ok p s') : isDelim p.1 = true → p.2 = true := by
  unfold classify at h
  rw [run_get] at h
  refine Advances.ite (.ite .yes (.ite .yes .syn)) (.ite .yes (.ite (.ite .syn .yes) (.ite .yes (.ite .syn (.ite .yes (.ite ?_ (.ite (.lit rfl) (.ite (.lit rfl) (.ite (.lit rfl) (.ite .syn (.ite .syn .syn))))))))))) s p s' h
  exact fun _ _ _ h => by cases h; exact fun h => by cases h

/-- the result is a delimiter -/
def OptDelim : Option Peeked → St → Prop := fun o _ => ∃ p, o = some p ∧ isDelim p = true

theorem tight_finishPeek {c : Bool} {q : Option (Nat × Nat × Nat)} {p : Peeked × Bool} (hp : isDelim p.1 = true → p.2 = true) :
    Tight 1 OptDelim s (finishPeek c q p : R AbsSrc _) (finishPeek c q p) := by
  rw [finishPeek_eq]
  have h : ∀ s : St, Tight 1 OptDelim s (do
      (if p.2 then skipPeekedByte else pure ())
      M.modify fun s => { s with peeked := some p.1 }
      pure (some p.1) : R AbsSrc _) (do
      (if p.2 then skipPeekedByte else pure ())
      M.modify fun s => { s with peeked := some p.1 }
      pure (some p.1)) := by
    intro s
    cases hd : isDelim p.1 with
    | false =>
      refine .never fun a s' hr => ?_
      obtain ⟨_, s1, _, h2⟩ := M.bind_eq_ok.1 hr
      obtain ⟨_, s2, _, h3⟩ := M.bind_eq_ok.1 h2
      cases h3
      rintro ⟨p', h4, h5⟩
      cases h4
      rw [hd] at h5
      cases h5
    | true =>
      rw [hp hd]
      refine (Tight.bind (l1 := 1) (l2 := 0) Tight.skipPeekedByte fun _ _ _ => .bind0 ?_ fun _ _ _ => .pure).mono (by omega)
      exact .modify (fun _ => rfl) fun _ _ _ => rfl
  refine .get fun r t => ?_
  refine .ite (fun _ => ?_) fun _ => .ite (fun _ => .fails rfl) fun _ => h s
  cases q with
  | none => exact h s
  | some x => exact .ite (fun _ => .fails rfl) fun _ => h s

theorem tight_peekToken : Tight 1 OptDelim s (peekToken : R AbsSrc _) peekToken := by
  unfold peekToken
  refine .after (loc_ws s) fun o s1 _ => ?_
  cases o with
  | none => exact .never fun a s' hr => by cases hr; rintro ⟨_, h, _⟩; cases h
  | some b =>
    refine .get fun r t => ?_
    dsimp only
    refine .ite (fun _ => .ite (fun _ => .fails rfl) fun _ => ?_) fun _ => ?_
    · refine .after (Loc.skipPeekedByte s1) fun _ s2 _ => .after (Loc.adv s2) fun _ s3 _ => .after (loc_ws' s3) fun b' s4 _ => ?_
      exact .after (loc_classify s4) fun p s5 h => tight_finishPeek (classify_delim h)
    · exact .after (loc_classify s1) fun p s5 h => tight_finishPeek (classify_delim h)

theorem tight_pio (hs : s.peeked = none) : Tight 1 OptDelim s (peekInternalOptional : R AbsSrc _) peekInternalOptional := by
  unfold peekInternalOptional
  refine .get fun r t => .ite (fun _ => .fails rfl) fun _ => .ite (fun h => ?_) fun _ => .ite (fun _ => .fails rfl) fun _ => .ite (fun _ => ?_) fun _ => tight_peekToken
  · rw [hs] at h; cases h
  · exact .after (loc_afterName s) fun _ _ _ => tight_peekToken

/-- nothing is read if the next token is known -/
theorem tight_pio' {p : Peeked} (hs : s.peeked = some p) : Tight 0 Any s (peekInternalOptional : R AbsSrc _) peekInternalOptional := by
  unfold peekInternalOptional
  refine .get fun r t => .ite (fun _ => .fails rfl) fun _ => .ite (fun h => .pure) fun h => ?_
  rw [hs] at h
  exact absurd rfl h

/-- the result is a delimiter -/
def IsDelim : Peeked → St → Prop := fun p _ => isDelim p = true

theorem tight_peekInternal (hs : s.peeked = none) : Tight 1 IsDelim s (peekInternal : R AbsSrc _) peekInternal := by
  unfold peekInternal
  refine (Tight.bindK (l2 := 0) (tight_pio hs) (fun o s1 p s2 _ h2 h3 => ?_) fun o s1 _ => ?_).mono (by omega)
  · cases o with
    | some q => cases h2; exact ⟨_, rfl, h3⟩
    | none =>
      dsimp only at h2
      rw [run_get] at h2
      split at h2 <;> cases h2
  · cases o with
    | some q => exact .pure
    | none => exact .get fun r t => .ite (fun _ => .fails rfl) fun _ => .fails rfl

theorem tight_peekInternal' {p : Peeked} (hs : s.peeked = some p) : Tight 0 Any s (peekInternal : R AbsSrc _) peekInternal := by
  unfold peekInternal
  refine (tight_pio' hs).bind0 fun o s1 _ => ?_
  cases o with
  | some q => exact .pure
  | none => exact .get fun r t => .ite (fun _ => .fails rfl) fun _ => .fails rfl

theorem pio_known {p : Peeked} {o : Option Peeked} {s' : St} (hs : s.peeked = some p) (h : (peekInternalOptional : R AbsSrc _).run s = .ok o s') : o = some p ∧ s' = s := by
  unfold peekInternalOptional at h
  rw [run_get] at h
  split at h
  · cases h
  rw [if_pos (by rw [hs]; rfl)] at h
  cases h
  exact ⟨hs, rfl⟩

theorem peekInternal_known {p q : Peeked} {s' : St} (hs : s.peeked = some p) (h : (peekInternal : R AbsSrc _).run s = .ok q s') : q = p ∧ s' = s := by
  unfold peekInternal at h
  obtain ⟨o, s2, h3, h4⟩ := M.bind_eq_ok.1 h
  obtain ⟨rfl, rfl⟩ := pio_known hs h3
  cases h4
  exact ⟨rfl, rfl⟩

theorem tight_mapPeeked {p : Peeked} : Tight 0 Any s (mapPeeked p : R AbsSrc _) (mapPeeked p) := by
  unfold mapPeeked
  cases p <;> first | exact .pure | exact .fails rfl

/-! ## Arrays and objects -/

/-- the part of `startExpectedValueType` behind `peekInternal` -/
def startRest (v : ValueType) (c : Bool) (p : Peeked) : R AbsSrc Peeked := do
  let peeked ← mapPeeked p
  let s ← M.get
  if peeked == v then
    match (if c then depthExceeded s else none) with
    | some max => M.fail (.maxNestingDepthExceeded max (loc s))
    | none => do
      consumePeeked
      pure p
  else M.fail (.unexpectedValueType v peeked (loc s))

theorem start_eq {v : ValueType} {c : Bool} : (startExpectedValueType v c : R AbsSrc _) = M.get >>= fun s => if s.expectsMemberName then usagePanic .valueWhenExpectingName else peekInternal >>= startRest v c := rfl

theorem tight_startRest {v : ValueType} {c : Bool} {p : Peeked} : Tight 0 Any s (startRest v c p) (startRest v c p) := by
  unfold startRest
  refine tight_mapPeeked.bind0 fun w s1 _ => .get fun r t => .ite (fun _ => ?_) fun _ => .fails rfl
  show Tight 0 Any s1 (match (if c then depthExceeded s1 else none) with | some max => _ | none => _) (match (if c then depthExceeded s1 else none) with | some max => _ | none => _)
  cases (if c then depthExceeded s1 else none) with
  | some max => exact .fails rfl
  | none => exact tight_consumePeeked.bind0 fun _ _ _ => .pure

theorem startRest_delim {v : ValueType} {c : Bool} {p q : Peeked} {s' : St} (hv : v = .array ∨ v = .object ∨ v = .string) (h : (startRest v c p).run s = .ok q s') : isDelim p = true := by
  unfold startRest at h
  obtain ⟨w, s1, h1, h2⟩ := M.bind_eq_ok.1 h
  rw [run_get] at h2
  by_cases hw : (w == v) = true
  · have hw : w = v := by simpa using hw
    subst hw
    cases p <;> first | rfl | (cases h1; rcases hv with h | h | h <;> cases h)
  · rw [if_neg hw] at h2
    cases h2

theorem tight_start {v : ValueType} {c : Bool} (hv : v = .array ∨ v = .object ∨ v = .string) (hs : s.peeked = none) :
    Tight 1 Any s (startExpectedValueType v c : R AbsSrc _) (startExpectedValueType v c) := by
  rw [start_eq]
  refine .get fun r t => .ite (fun _ => .fails rfl) fun _ => ?_
  exact (Tight.bindK (l2 := 0) (tight_peekInternal hs) (fun p s1 q s2 _ h2 _ => startRest_delim hv h2) fun p s1 _ => tight_startRest).mono (by omega)

theorem tight_start' {v : ValueType} {c : Bool} {p : Peeked} (hs : s.peeked = some p) : Tight 0 Any s (startExpectedValueType v c : R AbsSrc _) (startExpectedValueType v c) := by
  rw [start_eq]
  exact .get fun r t => .ite (fun _ => .fails rfl) fun _ => (tight_peekInternal' hs).bind0 fun _ _ _ => tight_startRest

theorem start_delim {v : ValueType} {c : Bool} {p q : Peeked} {s' : St} (hv : v = .array ∨ v = .object ∨ v = .string) (hs : s.peeked = some p)
    (h : (startExpectedValueType v c : R AbsSrc _).run s = .ok q s') : isDelim p = true := by
  rw [start_eq, run_get] at h
  split at h
  · cases h
  · obtain ⟨p', s1, h1, h2⟩ := M.bind_eq_ok.1 h
    have := startRest_delim hv h2
    rw [(peekInternal_known hs h1).1] at this
    exact this

theorem tight_begin {v : ValueType} {x : StackValue} {l : Nat} (h : Tight l Any s (startExpectedValueType v true : R AbsSrc _) (startExpectedValueType v true)) :
    Tight l Any s (onContainerStart v x : R AbsSrc _) (onContainerStart v x) := by
  unfold onContainerStart
  refine (h.bind (l2 := 0) fun _ _ _ => ?_).mono (by omega)
  exact .modify (fun _ => rfl) fun _ _ _ => rfl

theorem tight_beginArray {l : Nat} (h : Tight l Any s (startExpectedValueType .array true : R AbsSrc _) (startExpectedValueType .array true)) : Tight l Any s (beginArray : R AbsSrc _) beginArray := by
  unfold beginArray
  refine ((tight_begin h).bind (l2 := 0) fun _ _ _ => ?_).mono (by omega)
  exact .modify (fun _ => rfl) fun _ _ _ => rfl

theorem tight_beginObject {l : Nat} (h : Tight l Any s (startExpectedValueType .object true : R AbsSrc _) (startExpectedValueType .object true)) : Tight l Any s (beginObject : R AbsSrc _) beginObject := by
  unfold beginObject
  refine ((tight_begin h).bind (l2 := 0) fun _ _ _ => ?_).mono (by omega)
  exact .modify (fun _ => rfl) fun _ _ _ => rfl

/-- the end of an array or object -/
theorem tight_close {l : Nat} {k : StructureKind} {q : Peeked} {f : Unit → R AbsSrc Unit} (hq : isDelim q = true)
    (h : Tight l IsDelim s (peekInternal : R AbsSrc _) peekInternal) (hf : ∀ s, Tight 0 Any s (f ()) (f ())) :
    Tight l Any s (do
      let p ← peekInternal
      if p != q then structureErr k
      else do
        consumePeeked
        f ()) (do
      let p ← peekInternal
      if p != q then structureErr k
      else do
        consumePeeked
        f ()) := by
  refine (Tight.bindK (l2 := 0) h (fun p s1 a s2 _ h2 _ => ?_) fun p s1 _ => .ite (fun _ => .fails rfl) fun _ => ?_).mono (by omega)
  · split at h2
    · cases h2
    · rename_i hp
      have : p = q := by simpa using hp
      rw [this]
      exact hq
  · exact tight_consumePeeked.bind0 fun _ s2 _ => hf s2

theorem tight_endArray {l : Nat} (h : Tight l IsDelim s (peekInternal : R AbsSrc _) peekInternal) : Tight l Any s (endArray : R AbsSrc _) endArray := by
  unfold endArray
  exact .get fun r t => .ite (fun _ => .fails rfl) fun _ => tight_close (f := fun _ => onContainerEnd) rfl h fun _ => tight_onContainerEnd

theorem tight_endObject {l : Nat} (h : Tight l IsDelim s (peekInternal : R AbsSrc _) peekInternal) : Tight l Any s (endObject : R AbsSrc _) endObject := by
  unfold endObject
  refine .get fun r t => .ite (fun _ => .fails rfl) fun _ => .ite (fun _ => .fails rfl) fun _ => tight_close (f := fun _ => (do
    M.modify fun s => { s with expectsMemberName := false }
    onContainerEnd)) rfl h fun _ => .bind0 ?_ fun _ _ _ => tight_onContainerEnd
  exact .modify (fun _ => rfl) fun _ _ _ => rfl

/-- the end of an array or object succeeds only at a delimiter -/
theorem endArray_delim {p : Peeked} {a : Unit} {s' : St} (hs : s.peeked = some p) (h : (endArray : R AbsSrc _).run s = .ok a s') : isDelim p = true := by
  unfold endArray at h
  rw [run_get] at h
  split at h
  · cases h
  · obtain ⟨p', s1, h1, h2⟩ := M.bind_eq_ok.1 h
    rw [(peekInternal_known hs h1).1] at h2
    split at h2
    · cases h2
    · rename_i hp
      have : p = .arrayEnd := by simpa using hp
      rw [this]
      rfl

theorem endObject_delim {p : Peeked} {a : Unit} {s' : St} (hs : s.peeked = some p) (h : (endObject : R AbsSrc _).run s = .ok a s') : isDelim p = true := by
  unfold endObject at h
  rw [run_get] at h
  split at h
  · cases h
  split at h
  · cases h
  · obtain ⟨p', s1, h1, h2⟩ := M.bind_eq_ok.1 h
    rw [(peekInternal_known hs h1).1] at h2
    split at h2
    · cases h2
    · rename_i hp
      have : p = .objectEnd := by simpa using hp
      rw [this]
      rfl

/-- the next token is known, and it is a delimiter -/
def KnownDelim (s : St) : Prop := ∃ p, s.peeked = some p ∧ isDelim p = true

theorem tight_peek (hs : s.peeked = none) : Tight 1 (fun _ s' => KnownDelim s') s (peek : R AbsSrc _) peek := by
  unfold peek
  refine .get fun r t => .ite (fun _ => .fails rfl) fun _ => ?_
  refine (Tight.bindK (l2 := 0) (tight_peekInternal hs) (fun p s1 a s2 h1 h2 h3 => ?_) fun p s1 _ => tight_mapPeeked.weaken fun _ _ _ _ => trivial).mono (by omega)
  have h4 := peekInternal_ok h1
  have h5 : s2 = s1 := by cases p <;> cases h2 <;> rfl
  obtain ⟨q, h6, h7⟩ := h3
  rw [h5, h4] at h6
  cases h6
  exact h7

theorem tight_peek' {p : Peeked} (hs : s.peeked = some p) : Tight 0 Any s (peek : R AbsSrc _) peek := by
  unfold peek
  exact .get fun r t => .ite (fun _ => .fails rfl) fun _ => (tight_peekInternal' hs).bind0 fun _ _ _ => tight_mapPeeked

theorem peek_known {p : Peeked} {v : ValueType} {s' : St} (hs : s.peeked = some p) (h : (peek : R AbsSrc _).run s = .ok v s') : s' = s := by
  unfold peek at h
  rw [run_get] at h
  split at h
  · cases h
  · obtain ⟨p', s1, h1, h2⟩ := M.bind_eq_ok.1 h
    have h3 := (peekInternal_known hs h1).2
    subst h3
    cases p' <;> cases h2 <;> rfl

/-- the check in `hasNext` -/
def hasNextRest (o : Option Peeked) : R AbsSrc Bool := match o with
  | none => pure false
  | some p => do
    let s ← M.get
    if !(!s.expectsMemberName || p == .nameStart || p == .objectEnd) then internalPanic .debugAssert
    else pure (p != .arrayEnd && p != .objectEnd)

theorem tight_hasNextRest {o : Option Peeked} {K : Bool → St → Prop} : Tight 0 K s (hasNextRest o) (hasNextRest o) := by
  cases o with
  | none => exact .pure
  | some p => exact .get fun r t => .ite (fun _ => .fails rfl) fun _ => .pure

/-- the token in `hasNext` -/
def hasNextToken (top : Bool) : R AbsSrc (Option Peeked) := if top then peekInternalOptional else do
  let p ← peekInternal
  pure (some p)

theorem hasNext_run : ∀ s : St, (∃ e s', (hasNext : R AbsSrc _).run s = .err e s' ∧ ∀ r t, ∃ s'', (hasNext : R AbsSrc _).run (cutSt s r t) = .err e s'') ∨
    (∃ top, (hasNext : R AbsSrc _).run s = (hasNextToken top >>= hasNextRest).run s ∧ ∀ r t, (hasNext : R AbsSrc _).run (cutSt s r t) = (hasNextToken top >>= hasNextRest).run (cutSt s r t)) := by
  intro s
  have h : ∀ s : St, (hasNext : R AbsSrc _).run s = if expectsMemberValue s then (usagePanic .hasNextExpectsValue : R AbsSrc _).run s
    else if s.stack.isEmpty then if s.isEmpty then (usagePanic .hasNextTopLevelNotStarted : R AbsSrc _).run s else if !s.settings.allowMultipleTopLevel then (usagePanic .hasNextMultiDisabled : R AbsSrc _).run s
      else (hasNextToken true >>= hasNextRest).run s
    else (hasNextToken false >>= hasNextRest).run s := by
    intro s
    unfold hasNext
    rw [run_get]
    split
    · rfl
    split
    · split
      · rfl
      split
      · rfl
      · rfl
    · rfl
  have h' : ∀ r t, (hasNext : R AbsSrc _).run (cutSt s r t) = if expectsMemberValue s then (usagePanic .hasNextExpectsValue : R AbsSrc _).run (cutSt s r t)
    else if s.stack.isEmpty then if s.isEmpty then (usagePanic .hasNextTopLevelNotStarted : R AbsSrc _).run (cutSt s r t) else if !s.settings.allowMultipleTopLevel then (usagePanic .hasNextMultiDisabled : R AbsSrc _).run (cutSt s r t)
      else (hasNextToken true >>= hasNextRest).run (cutSt s r t)
    else (hasNextToken false >>= hasNextRest).run (cutSt s r t) := fun r t => h _
  rw [h]
  simp only [h']
  split
  · exact .inl ⟨_, _, rfl, fun r t => ⟨_, rfl⟩⟩
  split
  · split
    · exact .inl ⟨_, _, rfl, fun r t => ⟨_, rfl⟩⟩
    split
    · exact .inl ⟨_, _, rfl, fun r t => ⟨_, rfl⟩⟩
    · exact .inr ⟨true, rfl, fun _ _ => rfl⟩
  · exact .inr ⟨false, rfl, fun _ _ => rfl⟩

theorem tight_hasNext_of {l : Nat} {K : Bool → St → Prop} (h : ∀ top, Tight l K s (hasNextToken top >>= hasNextRest) (hasNextToken top >>= hasNextRest)) : Tight l K s (hasNext : R AbsSrc _) hasNext := by
  rcases hasNext_run s with ⟨e, s', h1, _⟩ | ⟨top, h1, h2⟩
  · exact .fails h1
  · intro a s' hr hk
    rw [h1] at hr
    obtain ⟨q, h3, h4, h5⟩ := h top a s' hr hk
    refine ⟨q, h3, h4, fun r t ha => ?_⟩
    rw [h2]
    exact h5 r t ha

theorem hasNextRest_same {o : Option Peeked} {b : Bool} {s' : St} (h : (hasNextRest o).run s = .ok b s') : s' = s := by
  cases o with
  | none => cases h; rfl
  | some p =>
    unfold hasNextRest at h
    dsimp only at h
    rw [run_get] at h
    split at h <;> cases h
    rfl

theorem hasNextToken_ok {top : Bool} {o : Option Peeked} {s' : St} (h : (hasNextToken top).run s = .ok o s') : s'.peeked = o := by
  unfold hasNextToken at h
  split at h
  · rcases pio_ok h with h2 | ⟨rfl, h2, _⟩
    · exact h2.peeked
    · exact h2
  · obtain ⟨p, s1, h1, h2⟩ := M.bind_eq_ok.1 h
    cases h2
    exact peekInternal_ok h1

theorem tight_hasNextToken {top : Bool} (hs : s.peeked = none) : Tight 1 OptDelim s (hasNextToken top) (hasNextToken top) := by
  unfold hasNextToken
  refine .ite (fun _ => tight_pio hs) fun _ => ?_
  refine (Tight.bindK (l2 := 0) (tight_peekInternal hs) (fun p s1 o s2 _ h2 h3 => ?_) fun p s1 _ => .pure).mono (by omega)
  cases h2
  obtain ⟨q, h4, h5⟩ := h3
  cases h4
  exact h5

theorem tight_hasNext (hs : s.peeked = none) : Tight 1 (fun _ s' => KnownDelim s') s (hasNext : R AbsSrc _) hasNext := by
  refine tight_hasNext_of fun top => ?_
  refine (Tight.bindK (l2 := 0) (tight_hasNextToken hs) (fun o s1 b s2 h1 h2 h3 => ?_) fun o s1 _ => tight_hasNextRest).mono (by omega)
  have h4 := hasNextToken_ok h1
  obtain ⟨q, h5, h6⟩ := h3
  rw [hasNextRest_same h2, h4] at h5
  exact ⟨q, h5, h6⟩

theorem tight_hasNext' {p : Peeked} (hs : s.peeked = some p) : Tight 0 Any s (hasNext : R AbsSrc _) hasNext := by
  refine tight_hasNext_of fun top => Tight.bind0 ?_ fun o s1 _ => tight_hasNextRest
  unfold hasNextToken
  exact .ite (fun _ => tight_pio' hs) fun _ => (tight_peekInternal' hs).bind0 fun _ _ _ => .pure

theorem hasNext_known {p : Peeked} {b : Bool} {s' : St} (hs : s.peeked = some p) (h : (hasNext : R AbsSrc _).run s = .ok b s') : s' = s := by
  rcases hasNext_run s with ⟨e, s', h1, _⟩ | ⟨top, h1, h2⟩
  · rw [h1] at h; cases h
  · rw [h1] at h
    obtain ⟨o, s1, h3, h4⟩ := M.bind_eq_ok.1 h
    rw [hasNextRest_same h4]
    unfold hasNextToken at h3
    split at h3
    · exact (pio_known hs h3).2
    · obtain ⟨p, s2, h5, h6⟩ := M.bind_eq_ok.1 h3
      cases h6
      exact (peekInternal_known hs h5).2

/-- `has_next` is `false` only at a delimiter or at the end of the input -/
theorem hasNext_false {s' : St} (h : (hasNext : R AbsSrc _).run s = .ok false s') : KnownDelim s' ∨ s'.peeked = none := by
  rcases hasNext_run s with ⟨e, s', h1, _⟩ | ⟨top, h1, h2⟩
  · rw [h1] at h; cases h
  · rw [h1] at h
    obtain ⟨o, s1, h3, h4⟩ := M.bind_eq_ok.1 h
    have h5 := hasNextToken_ok h3
    rw [hasNextRest_same h4]
    cases o with
    | none => exact .inr h5
    | some p =>
      refine .inl ⟨p, h5, ?_⟩
      unfold hasNextRest at h4
      dsimp only at h4
      rw [run_get] at h4
      split at h4
      · cases h4
      · have : (p != .arrayEnd && p != .objectEnd) = false := by injection h4
        cases p <;> first | rfl | cases this

/-! ## Skipping -/

theorem tight_endContainer {l : Nat} (h : Tight l IsDelim s (peekInternal : R AbsSrc _) peekInternal) : Tight l Any s (endContainer : R AbsSrc _) endContainer := by
  unfold endContainer
  exact .get fun r t => .ite (fun _ => tight_endArray h) fun _ => tight_endObject h

theorem fwd_endContainer : Fwd (endContainer : R AbsSrc _) := by
  unfold endContainer
  exact .get fun s => .ite fwd_endArray fwd_endObject

/-- one iteration of the loop of `skip_value`, the value of `depth` afterwards -/
def skipIter (d : Nat) (atEnd : Bool) : R AbsSrc Nat := if atEnd then do
    endContainer
    pure (d - 1)
  else do
    skipNameIfExpected
    let x ← skipValueStart
    pure (d + x)

theorem skipLoop_succ {n d : Nat} : (skipValueLoop (n + 1) d : R AbsSrc _) = (do
    let atEnd ← atContainerEnd d
    let depth ← skipIter d atEnd
    if depth == 0 then pure () else skipValueLoop n depth) := by
  rw [skipValueLoop]
  rfl

theorem tight_skipValueLoop : ∀ n n' (s : St) d, 0 < d → s.peeked = none → Tight 1 Any s (skipValueLoop n d : R AbsSrc _) (skipValueLoop n' d) := by
  have hs : ∀ n n', (∀ (s : St) d, 0 < d → s.peeked = none → Tight 1 Any s (skipValueLoop n d : R AbsSrc _) (skipValueLoop n' d)) →
      ∀ (s : St) d, 0 < d → s.peeked = none → Tight 1 Any s (skipValueLoop (n + 1) d : R AbsSrc _) (skipValueLoop (n' + 1) d) := by
    intro n n' ih s d hd hp
    rw [skipLoop_succ, skipLoop_succ]
    refine .bindOr fun b s1 h1 => ?_
    have hr : ∀ {s2 : St} {d' : Nat}, s2.peeked = none → Tight 0 Any s2 (if d' == 0 then pure () else skipValueLoop n d' : R AbsSrc Unit) (if d' == 0 then pure () else skipValueLoop n' d') := by
      intro s2 d' h
      refine .ite (fun _ => .pure) fun hd' => (ih s2 d' ?_ h).mono (by omega)
      have : d' ≠ 0 := by simpa using hd'
      omega
    cases b with
    | true =>
      have h2 : (hasNext : R AbsSrc _).run s = .ok false s1 := by
        unfold atContainerEnd at h1
        rw [if_pos hd] at h1
        obtain ⟨b, s2, h3, h4⟩ := M.bind_eq_ok.1 h1
        cases b with
        | true => cases h4
        | false => cases h4; exact h3
      have he : ∀ l, Tight l IsDelim s1 (peekInternal : R AbsSrc _) peekInternal → Tight l Any s1 (do
          let depth ← skipIter d true
          if depth == 0 then pure () else skipValueLoop n depth : R AbsSrc Unit) (do
          let depth ← skipIter d true
          if depth == 0 then pure () else skipValueLoop n' depth) := by
        intro l h
        refine (Tight.bind (l1 := l) (l2 := 0) ?_ fun d' s2 h3 => hr ?_).mono (by omega)
        · exact ((tight_endContainer h).bind (l2 := 0) fun _ _ _ => .pure).mono (by omega)
        · obtain ⟨_, s3, h4, h5⟩ := M.bind_eq_ok.1 h3
          cases h5
          exact (fwd_endContainer _ _ _ h4).1
      rcases hasNext_false h2 with h3 | h3
      · refine .inl ⟨?_, ?_⟩
        · unfold atContainerEnd
          refine .ite (fun _ => ?_) fun h => absurd hd h
          refine (Tight.bindK (l2 := 0) (tight_hasNext hp) (fun b s2 b' s3 h4 _ _ => ?_) fun _ _ _ => .pure).mono (by omega)
          rw [h2] at h4
          cases h4
          exact h3
        · obtain ⟨p, h4, _⟩ := h3
          exact he 0 ((tight_peekInternal' h4).weaken fun _ _ _ _ => trivial)
      · exact .inr ⟨loc_atContainerEnd s, he 1 (tight_peekInternal h3)⟩
    | false =>
      refine .inr ⟨loc_atContainerEnd s, ?_⟩
      refine .after (m := skipIter d false) (m' := skipIter d false) (Loc.bind loc_skipNameIfExpected (fun _ => Loc.bind loc_skipValueStart fun _ => .pure _) s1) fun d' s2 h3 => ?_
      obtain ⟨_, s3, h4, h5⟩ := M.bind_eq_ok.1 h3
      obtain ⟨x, s4, h6, h7⟩ := M.bind_eq_ok.1 h5
      cases h7
      have : (d + x == 0) = false := by
        have : d + x ≠ 0 := by omega
        simpa using this
      rw [this]
      exact ih s2 _ (by omega) (fwd_skipValueStart _ _ _ h6).1
  intro n
  induction n with
  | zero => intro n' s d hd hp; unfold skipValueLoop; exact .oof
  | succ n ih =>
    intro n' s d hd hp
    cases n' with
    | zero =>
      have := (hs n n (ih n) s d hd hp).oof'
      rw [show (skipValueLoop 0 d : R AbsSrc _) = M.fail .outOfFuel by rw [skipValueLoop]]
      exact this
    | succ n' => exact hs n n' (ih n') s d hd hp

/-- the type of the value which starts with the given token -/
def startType : Peeked → ValueType
  | .arrayStart => .array
  | .objectStart => .object
  | _ => .string

theorem tight_skipValue {p : Peeked} (hs : s.peeked = some p) (hp : p = .arrayStart ∨ p = .objectStart ∨ p = .stringStart) : Tight 1 Any s (skipValue : R AbsSrc _) skipValue := by
  have hk : ∀ n n', s.expectsMemberName = false → Tight 1 Any s (skipValueLoop (n + 1) 0 : R AbsSrc _) (skipValueLoop (n' + 1) 0) := by
    intro n n' hm
    rw [skipLoop_succ, skipLoop_succ]
    refine .after (loc_atContainerEnd s) fun b s1 h1 => ?_
    cases h1
    have hn : (skipNameIfExpected : R AbsSrc _).run s = .ok () s := by
      unfold skipNameIfExpected
      rw [run_get, hm]
      rfl
    have hq : ∀ v, (peek : R AbsSrc _).run s = .ok v s → v = startType p := by
      intro v h
      unfold peek at h
      rw [run_get, hm] at h
      obtain ⟨p', s1, h1, h2⟩ := M.bind_eq_ok.1 h
      obtain ⟨rfl, rfl⟩ := peekInternal_known hs h1
      rcases hp with rfl | rfl | rfl <;> cases h2 <;> rfl
    have hd : ∀ d' s1, (skipIter 0 false).run s = .ok d' s1 → ∃ x, (skipValueStart : R AbsSrc _).run s = .ok x s1 ∧ d' = 0 + x := by
      intro d' s1 h
      obtain ⟨_, s2, h1, h2⟩ := M.bind_eq_ok.1 h
      rw [hn] at h1
      cases h1
      obtain ⟨x, s3, h3, h4⟩ := M.bind_eq_ok.1 h2
      cases h4
      exact ⟨x, h3, rfl⟩
    have hpk : ∀ v s1, (peek : R AbsSrc _).run s = .ok v s1 → s1 = s ∧ v = startType p := by
      intro v s1 h
      cases peek_known hs h
      exact ⟨rfl, hq v h⟩
    refine .bindOr fun d' s1 h1 => ?_
    obtain ⟨x, h2, rfl⟩ := hd d' s1 h1
    have h3 : p = .stringStart ∨ x = 1 := by
      unfold skipValueStart at h2
      obtain ⟨v, s2, h3, h4⟩ := M.bind_eq_ok.1 h2
      obtain ⟨rfl, h5⟩ := hpk v s2 h3
      rcases hp with rfl | rfl | rfl
      · cases h5
        obtain ⟨_, _, _, h6⟩ := M.bind_eq_ok.1 h4
        cases h6
        exact .inr rfl
      · cases h5
        obtain ⟨_, _, _, h6⟩ := M.bind_eq_ok.1 h4
        cases h6
        exact .inr rfl
      · exact .inl rfl
    rcases h3 with rfl | rfl
    · have hz : x = 0 := by
        unfold skipValueStart at h2
        obtain ⟨v, s2, h3, h4⟩ := M.bind_eq_ok.1 h2
        obtain ⟨rfl, h5⟩ := hpk v s2 h3
        cases h5
        obtain ⟨_, _, _, h6⟩ := M.bind_eq_ok.1 h4
        obtain ⟨_, _, _, h7⟩ := M.bind_eq_ok.1 h6
        obtain ⟨_, _, _, h8⟩ := M.bind_eq_ok.1 h7
        cases h8
        rfl
      subst hz
      refine .inl ⟨?_, .pure⟩
      unfold skipIter
      refine .after (m := skipNameIfExpected) (m' := skipNameIfExpected) (loc_skipNameIfExpected s) fun _ s2 h3 => ?_
      rw [hn] at h3
      cases h3
      refine (Tight.bind (l1 := 1) (l2 := 0) ?_ fun _ _ _ => .pure).mono (by omega)
      unfold skipValueStart
      refine .after (loc_peek s) fun v s2 h3 => ?_
      obtain ⟨rfl, h5⟩ := hpk v s2 h3
      cases h5
      have h := @loc_start .string false (fun h => by cases h)
      exact .after (h s2) fun _ s3 _ => (tight_skipAllStringBytes.bind (l2 := 0) fun _ _ _ => tight_onValueEnd.bind0 fun _ _ _ => .pure).mono (by omega)
    · refine .inr ⟨Loc.bind loc_skipNameIfExpected (fun _ => Loc.bind loc_skipValueStart fun _ => .pure _) s, ?_⟩
      exact tight_skipValueLoop n n' s1 1 (by omega) (fwd_skipValueStart _ _ _ h2).1
  unfold skipValue
  refine .get fun r t => .ite (fun _ => .fails rfl) fun hm => ?_
  have hm : s.expectsMemberName = false := by simpa using hm
  generalize fuel s = n
  generalize fuel (cutSt s r t) = n'
  cases n with
  | zero => unfold skipValueLoop; exact .oof
  | succ n =>
    cases n' with
    | zero =>
      rw [show (skipValueLoop 0 0 : R AbsSrc _) = M.fail .outOfFuel by rw [skipValueLoop]]
      exact (hk n n hm).oof'
    | succ n' => exact hk n n' hm

end

/-! ## Sequences of calls -/

/-- calls which consume at least `l` bytes and depend on nothing but the consumed bytes -/
def TightSteps (l : Nat) (ops : List Op) (s : St) (rs : List (Except RErr Out)) (s' : St) : Prop :=
  ∃ q, l ≤ q ∧ Ate q s s' ∧ ∀ r t, r.take q = s.src.rest.take q → Except.error .outOfFuel ∉ Reader.runOps ops (cutSt s r t) → Steps ops (cutSt s r t) rs (cutSt s' (r.drop q) t)

section
variable {s s1 s' : St} {op : Op} {ops ops' : List Op} {rs rs' : List (Except RErr Out)} {o : Out} {l l1 l2 : Nat}

theorem TightSteps.nil : TightSteps 0 [] s [] s := ⟨0, Nat.le_refl _, .zero rfl rfl, fun _ _ _ _ => .nil⟩

theorem take_left {r r' : Bytes} {q1 q2 : Nat} (h : r.take (q1 + q2) = r'.take (q1 + q2)) : r.take q1 = r'.take q1 := by
  have := congrArg (List.take q1) h
  rwa [List.take_take, List.take_take, Nat.min_eq_left (by omega)] at this

theorem take_right {r r' : Bytes} {q1 q2 : Nat} (h : r.take (q1 + q2) = r'.take (q1 + q2)) : (r.drop q1).take q2 = (r'.drop q1).take q2 := by
  have := congrArg (List.drop q1) h
  rwa [List.drop_take, List.drop_take, show q1 + q2 - q1 = q2 by omega] at this

theorem TightSteps.cons {K : Out → St → Prop} (hop : op ≠ .consumeTrailingWhitespace) (hr : (runOp op).run s = .ok o s1) (h : Tight l1 K s (runOp op) (runOp op)) (hk : K o s1)
    (h' : TightSteps l2 ops s1 rs s') : TightSteps (l1 + l2) (op :: ops) s (.ok o :: rs) s' := by
  obtain ⟨q1, h1, h2, h3⟩ := h o s1 hr hk
  obtain ⟨q2, h4, h5, h6⟩ := h'
  refine ⟨q1 + q2, by omega, h2.trans h5, fun r t ha hf => ?_⟩
  rcases h3 r t (take_left ha) with h7 | ⟨s0, h7⟩
  · rw [runOps_cons_ok hop h7] at hf
    rw [← List.drop_drop]
    exact .ok hop h7 (h6 _ t (by rw [h2.rest]; exact take_right ha) fun h => hf (List.mem_cons_of_mem _ h))
  · refine absurd ?_ hf
    rw [Reader.runOps, h7]
    exact List.mem_cons_self ..

/-- if the last calls consume something then looking ahead does not matter before -/
theorem TightSteps.after (h : Steps ops s rs s1) (h' : TightSteps 1 ops' s1 rs' s') : TightSteps 1 (ops ++ ops') s (rs ++ rs') s' := by
  obtain ⟨q1, h1, h2⟩ := h.local
  obtain ⟨q2, h4, h5, h6⟩ := h'
  have hle := (h1.trans h5).le
  refine ⟨q1 + q2, by omega, h1.trans h5, fun r t ha hf => ?_⟩
  have ha1 : Agree q1 s r t := by
    refine ⟨?_, fun hl => absurd hl (by omega)⟩
    have := congrArg (List.take (q1 + 1)) ha
    rwa [List.take_take, List.take_take, Nat.min_eq_left (by omega)] at this
  have h7 := h2 r t ha1 fun hm => hf ?_
  · refine h7.append ?_
    rw [← List.drop_drop]
    refine h6 _ t (by rw [h1.rest]; exact take_right ha) fun hm => hf ?_
    rw [h7.runOps ops']
    exact List.mem_append_right _ hm
  · clear ha ha1 h2 h6
    generalize cutSt s r t = s0 at hm ⊢
    clear h h1 h5 hf
    induction ops generalizing s0 with
    | nil => cases hm
    | cons op ops ih =>
      rw [List.cons_append, Reader.runOps]
      rw [Reader.runOps] at hm
      cases hr : (runOp op).run s0 with
      | ok x s2 =>
        rw [hr] at hm
        dsimp only at hm ⊢
        split
        · rename_i hc; rw [if_pos hc] at hm; exact hm
        · rename_i hc
          rw [if_neg hc] at hm
          cases hm with
          | tail _ hm => exact List.mem_cons_of_mem _ (ih s2 hm)
      | err e s2 =>
        rw [hr] at hm
        dsimp only at hm ⊢
        split
        · rename_i hc; rw [if_pos hc] at hm; exact hm
        · rename_i hc
          rw [if_neg hc] at hm
          cases hm with
          | head => exact List.mem_cons_self ..
          | tail _ hm => exact List.mem_cons_of_mem _ (ih s2 hm)

/-- calls which only look at the next token -/
def looks : Op → Bool
  | .peek | .hasNext | .currentPosition _ => true
  | _ => false

/-- calls for the start and end of arrays and objects -/
def bracket : Op → Bool
  | .beginArray | .endArray | .beginObject | .endObject => true
  | _ => false

theorem tight_out {α : Type} {K : St → Prop} {m : R AbsSrc α} {f : α → Out} (h : Tight l (fun _ s' => K s') s m m) : Tight l (fun _ s' => K s') s (m >>= fun a => pure (f a)) (m >>= fun a => pure (f a)) := by
  refine (h.bindK (l2 := 0) (fun a s1 b s2 _ h2 h3 => ?_) fun _ _ _ => .pure).mono (by omega)
  cases h2
  exact h3

theorem tight_looks (hop : looks op = true) (hs : s.peeked = none) : Tight 1 (fun _ s' => KnownDelim s') s (runOp op : R AbsSrc _) (runOp op) := by
  cases op with
  | peek => exact tight_out (tight_peek hs)
  | hasNext => exact tight_out (tight_hasNext hs)
  | currentPosition b =>
    refine .never fun a s' hr => ?_
    cases hr
    rintro ⟨p, h, _⟩
    rw [hs] at h
    cases h
  | _ => cases hop

theorem tight_looks' {p : Peeked} (hop : looks op = true) (hs : s.peeked = some p) : Tight 0 Any s (runOp op : R AbsSrc _) (runOp op) := by
  cases op with
  | peek => exact tight_out (K := fun _ => True) (tight_peek' hs)
  | hasNext => exact tight_out (K := fun _ => True) (tight_hasNext' hs)
  | currentPosition b => exact .get fun r t => .pure
  | _ => cases hop

theorem looks_known {p : Peeked} (hop : looks op = true) (hs : s.peeked = some p) (h : (runOp op : R AbsSrc _).run s = .ok o s') : s' = s := by
  cases op with
  | peek =>
    obtain ⟨_, _, h1, h2⟩ := M.bind_eq_ok.1 h
    cases h2
    exact peek_known hs h1
  | hasNext =>
    obtain ⟨_, _, h1, h2⟩ := M.bind_eq_ok.1 h
    cases h2
    exact hasNext_known hs h1
  | currentPosition b => cases h; rfl
  | _ => cases hop

theorem tight_bracket (hop : bracket op = true) (hs : s.peeked = none) : Tight 1 Any s (runOp op : R AbsSrc _) (runOp op) := by
  cases op with
  | beginArray => exact tight_out (K := fun _ => True) (tight_beginArray (tight_start (.inl rfl) hs))
  | beginObject => exact tight_out (K := fun _ => True) (tight_beginObject (tight_start (.inr (.inl rfl)) hs))
  | endArray => exact tight_out (K := fun _ => True) (tight_endArray (tight_peekInternal hs))
  | endObject => exact tight_out (K := fun _ => True) (tight_endObject (tight_peekInternal hs))
  | _ => cases hop

theorem tight_bracket' {p : Peeked} (hop : bracket op = true) (hs : s.peeked = some p) : Tight 0 Any s (runOp op : R AbsSrc _) (runOp op) := by
  cases op with
  | beginArray => exact tight_out (K := fun _ => True) (tight_beginArray (tight_start' hs))
  | beginObject => exact tight_out (K := fun _ => True) (tight_beginObject (tight_start' hs))
  | endArray => exact tight_out (K := fun _ => True) (tight_endArray ((tight_peekInternal' hs).weaken fun _ _ _ _ => trivial))
  | endObject => exact tight_out (K := fun _ => True) (tight_endObject ((tight_peekInternal' hs).weaken fun _ _ _ _ => trivial))
  | _ => cases hop

theorem bracket_delim {p : Peeked} (hop : bracket op = true) (hs : s.peeked = some p) (h : (runOp op : R AbsSrc _).run s = .ok o s') : isDelim p = true := by
  have hb : ∀ {v : ValueType} {x : StackValue} {a : Unit} {s1 : St}, v = .array ∨ v = .object ∨ v = .string → (onContainerStart v x : R AbsSrc _).run s = .ok a s1 → isDelim p = true := by
    intro v x a s1 hv h
    obtain ⟨_, _, h1, _⟩ := M.bind_eq_ok.1 h
    exact start_delim hv hs h1
  cases op with
  | beginArray =>
    obtain ⟨_, _, h1, _⟩ := M.bind_eq_ok.1 h
    obtain ⟨_, _, h2, _⟩ := M.bind_eq_ok.1 h1
    exact hb (.inl rfl) h2
  | beginObject =>
    obtain ⟨_, _, h1, _⟩ := M.bind_eq_ok.1 h
    obtain ⟨_, _, h2, _⟩ := M.bind_eq_ok.1 h1
    exact hb (.inr (.inl rfl)) h2
  | endArray =>
    obtain ⟨_, _, h1, _⟩ := M.bind_eq_ok.1 h
    exact endArray_delim hs h1
  | endObject =>
    obtain ⟨_, _, h1, _⟩ := M.bind_eq_ok.1 h
    exact endObject_delim hs h1
  | _ => cases hop

theorem looks_ne (h : looks op = true) : op ≠ .consumeTrailingWhitespace := by rintro rfl; cases h
theorem bracket_ne (h : bracket op = true) : op ≠ .consumeTrailingWhitespace := by rintro rfl; cases h

/-- looking at the next token, which is known and a delimiter, and then consuming it -/
theorem tight_known (hb : bracket op = true) : ∀ (ls : List Op) {s : St} {os : List Out}, (∀ x ∈ ls, looks x = true) → KnownDelim s → Steps (ls ++ [op]) s (os.map .ok) s' → TightSteps 0 (ls ++ [op]) s (os.map .ok) s' := by
  intro ls
  induction ls with
  | nil =>
    intro s os _ hk h
    obtain ⟨p, hp, _⟩ := hk
    cases os with
    | nil => cases h
    | cons o os =>
      cases h with
      | ok hop hr ht =>
        cases os with
        | cons _ _ => cases ht
        | nil =>
          cases ht
          exact .cons (l1 := 0) (l2 := 0) hop hr (tight_bracket' hb hp) trivial .nil
  | cons x ls ih =>
    intro s os hl hk h
    obtain ⟨p, hp, hd⟩ := hk
    cases os with
    | nil => cases h
    | cons o os =>
      cases h with
      | ok hop hr ht =>
        have hx := hl x (List.mem_cons_self ..)
        cases looks_known hx hp hr
        exact .cons (l1 := 0) (l2 := 0) hop hr (tight_looks' hx hp) trivial (ih (fun y hy => hl y (List.mem_cons_of_mem _ hy)) ⟨p, hp, hd⟩ ht)

/-- after looking at a token which is no delimiter the start or end of an array or object is not consumed -/
theorem looks_delim (hb : bracket op = true) : ∀ (ls : List Op) {s : St} {os : List Out} {p : Peeked}, (∀ x ∈ ls, looks x = true) → s.peeked = some p → Steps (ls ++ [op]) s (os.map .ok) s' → isDelim p = true := by
  intro ls
  induction ls with
  | nil =>
    intro s os p _ hp h
    cases os with
    | nil => cases h
    | cons o os =>
      cases h with
      | ok hop hr ht => exact bracket_delim hb hp hr
  | cons x ls ih =>
    intro s os p hl hp h
    cases os with
    | nil => cases h
    | cons o os =>
      cases h with
      | ok hop hr ht =>
        have hx := hl x (List.mem_cons_self ..)
        cases looks_known hx hp hr
        exact ih (fun y hy => hl y (List.mem_cons_of_mem _ hy)) hp ht

/-- looking at the next token and then consuming it -/
theorem tight_unknown (hb : bracket op = true) : ∀ (ls : List Op) {s : St} {os : List Out}, (∀ x ∈ ls, looks x = true) → s.peeked = none → Steps (ls ++ [op]) s (os.map .ok) s' → TightSteps 1 (ls ++ [op]) s (os.map .ok) s' := by
  intro ls
  induction ls with
  | nil =>
    intro s os _ hp h
    cases os with
    | nil => cases h
    | cons o os =>
      cases h with
      | ok hop hr ht =>
        cases os with
        | cons _ _ => cases ht
        | nil =>
          cases ht
          exact .cons (l1 := 1) (l2 := 0) hop hr (tight_bracket hb hp) trivial .nil
  | cons x ls ih =>
    intro s os hl hp h
    cases os with
    | nil => cases h
    | cons o os =>
      cases h with
      | @ok _ _ _ _ s1 _ _ hop hr ht =>
        have hx := hl x (List.mem_cons_self ..)
        have hl' : ∀ y ∈ ls, looks y = true := fun y hy => hl y (List.mem_cons_of_mem _ hy)
        cases hq : s1.peeked with
        | none => exact TightSteps.after (ops := [x]) (rs := [.ok o]) (.ok hop hr .nil) (ih hl' hq ht)
        | some p =>
          have hd : KnownDelim s1 := ⟨p, hq, looks_delim hb ls hl' hq ht⟩
          exact .cons (l1 := 1) (l2 := 0) hop hr (tight_looks hx hp) hd (tight_known hb ls hl' hd ht)

end

end Verif.Abs
