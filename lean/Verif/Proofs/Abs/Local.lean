import Verif.Proofs.Abs.Keeps
import Verif.Model.Run
/-!
# Which part of the input matters

`Loc m m'`: if `m` consumes `q` bytes then its result does not depend on the bytes behind the byte number `q + 1` (`m'` is the same computation, possibly with other fuel). In
addition: the position does not decrease, and where the reader is after an error of the nesting limit.
-/

namespace Verif.Abs
open Reader

/-- states which contain the state of the reader -/
class HasSt (S : Type) where
  st : S → St
  cut : S → Bytes → Option Nat → S

/-- the same state with another rest of the input -/
@[reducible] def cutSt (s : St) (r : Bytes) (t : Option Nat) : St := { s with src := { s.src with rest := r, term := t } }

instance : HasSt St := ⟨id, cutSt⟩
instance {α : Type} : HasSt (St × α) := ⟨Prod.fst, fun s r t => (cutSt s.1 r t, s.2)⟩

/-- reader after an error of the nesting limit -/
def DepthErr (e : RErr) (s : St) : Prop := ∀ n l, e = .maxNestingDepthExceeded n l → l = loc s ∧ depthExceeded s = some n ∧ (s.peeked = some .arrayStart ∨ s.peeked = some .objectStart)

/-- reader before and after an error -/
structure ErrOk (e : RErr) (s s' : St) : Prop where
  depth : DepthErr e s'
  pos : e.fatal = false → s.bytePos ≤ s'.bytePos

theorem ErrOk.refl {e : RErr} {s : St} (h : DepthErr e s) : ErrOk e s s := ⟨h, fun _ => Nat.le_refl _⟩
theorem ErrOk.cons {e : RErr} {s s1 s' : St} (h : s.bytePos ≤ s1.bytePos) (h' : ErrOk e s1 s') : ErrOk e s s' := ⟨h'.1, fun hf => Nat.le_trans h (h'.2 hf)⟩

/-- `q` bytes have been consumed -/
structure Ate (q : Nat) (s s' : St) : Prop where
  rest : s'.src.rest = s.src.rest.drop q
  le : q ≤ s.src.rest.length
  term : s'.src.term = s.src.term

/-- the other input is the same for the next `q + 1` bytes -/
structure Agree (q : Nat) (s : St) (r : Bytes) (t : Option Nat) : Prop where
  bytes : r.take (q + 1) = s.src.rest.take (q + 1)
  term : s.src.rest.length ≤ q → t = s.src.term

/-- the same result, or not enough fuel -/
def Fin {S α : Type} (x y : Res RErr S α) : Prop := x = y ∨ ∃ s, x = .err .outOfFuel s

def LocAt {S α : Type} [HasSt S] (s : S) (m m' : M RErr S α) : Prop := match m.run s with
  | .ok a s' => ∃ q, Ate q (HasSt.st s) (HasSt.st s') ∧ (HasSt.st s).bytePos ≤ (HasSt.st s').bytePos ∧ ∀ r t, Agree q (HasSt.st s) r t → Fin (m'.run (HasSt.cut s r t)) (.ok a (HasSt.cut s' (r.drop q) t))
  | .err e s' => e = .outOfFuel ∨ ∃ q, Ate q (HasSt.st s) (HasSt.st s') ∧ ErrOk e (HasSt.st s) (HasSt.st s') ∧ ∀ r t, Agree q (HasSt.st s) r t → Fin (m'.run (HasSt.cut s r t)) (.err e (HasSt.cut s' (r.drop q) t))

def Loc {S α : Type} [HasSt S] (m m' : M RErr S α) : Prop := ∀ s, LocAt s m m'

theorem Ate.zero {s s' : St} (h : s'.src.rest = s.src.rest) (h' : s'.src.term = s.src.term) : Ate 0 s s' := ⟨h, Nat.zero_le _, h'⟩

theorem Ate.trans {q1 q2 : Nat} {s s1 s2 : St} (h : Ate q1 s s1) (h' : Ate q2 s1 s2) : Ate (q1 + q2) s s2 := by
  refine ⟨?_, ?_, h'.term.trans h.term⟩
  · rw [h'.rest, h.rest, List.drop_drop]
  · have := h'.le
    rw [h.rest, List.length_drop] at this
    have := h.le
    omega

theorem Agree.left {q1 q2 : Nat} {s : St} {r : Bytes} {t : Option Nat} (h : Agree (q1 + q2) s r t) : Agree q1 s r t := by
  refine ⟨?_, fun hl => h.term (by omega)⟩
  have := congrArg (List.take (q1 + 1)) h.bytes
  rwa [List.take_take, List.take_take, Nat.min_eq_left (by omega)] at this

theorem Agree.right {q1 q2 : Nat} {s s1 : St} {r : Bytes} {t : Option Nat} (h : Agree (q1 + q2) s r t) (ha : Ate q1 s s1) : Agree q2 s1 (r.drop q1) t := by
  refine ⟨?_, fun hl => ?_⟩
  · have := congrArg (List.drop q1) h.bytes
    rw [List.drop_take, List.drop_take, show q1 + q2 + 1 - q1 = q2 + 1 by omega] at this
    rw [ha.rest]
    exact this
  · rw [ha.term]
    rw [ha.rest, List.length_drop] at hl
    exact h.term (by omega)

section
variable {S α β : Type} [HasSt S] {m m' : M RErr S α} {f f' : α → M RErr S β} {s : S}

theorem LocAt.bind (h : LocAt s m m') (hf : ∀ a s', m.run s = .ok a s' → LocAt s' (f a) (f' a)) : LocAt s (m >>= f) (m' >>= f') := by
  unfold LocAt at *
  rw [M.run_bind]
  cases hm : m.run s with
  | err e s1 =>
    rw [hm] at h
    rcases h with h | ⟨q, h1, h2, h3⟩
    · exact .inl h
    · refine .inr ⟨q, h1, h2, fun r t ha => ?_⟩
      rcases h3 r t ha with h | ⟨s2, h⟩
      · exact .inl (M.bind_err h)
      · exact .inr ⟨s2, M.bind_err h⟩
  | ok a s1 =>
    rw [hm] at h
    obtain ⟨q1, h1, h2, h3⟩ := h
    have hf := hf a s1 hm
    dsimp only
    have h4 : ∀ q2 r t, Agree (q1 + q2) (HasSt.st s) r t → ∀ y, (Agree q2 (HasSt.st s1) (r.drop q1) t → Fin ((f' a).run (HasSt.cut s1 (r.drop q1) t)) y) → Fin ((m' >>= f').run (HasSt.cut s r t)) y := by
      intro q2 r t ha y hy
      rcases h3 r t ha.left with h | ⟨s2, h⟩
      · rw [M.bind_ok h]
        exact hy (ha.right h1)
      · exact .inr ⟨s2, M.bind_err h⟩
    cases hm2 : (f a).run s1 with
    | ok b s2 =>
      rw [hm2] at hf
      obtain ⟨q2, h5, h6, h7⟩ := hf
      refine ⟨q1 + q2, h1.trans h5, Nat.le_trans h2 h6, fun r t ha => h4 q2 r t ha _ fun ha' => ?_⟩
      rw [← List.drop_drop]
      exact h7 _ _ ha'
    | err e s2 =>
      rw [hm2] at hf
      rcases hf with h | ⟨q2, h5, h6, h7⟩
      · exact .inl h
      · refine .inr ⟨q1 + q2, h1.trans h5, .cons h2 h6, fun r t ha => h4 q2 r t ha _ fun ha' => ?_⟩
        rw [← List.drop_drop]
        exact h7 _ _ ha'

theorem Loc.bind (h : Loc m m') (hf : ∀ a, Loc (f a) (f' a)) : Loc (m >>= f) (m' >>= f') := fun s => (h s).bind fun a s' _ => hf a s'

theorem Loc.pure (a : α) : Loc (pure a : M RErr S α) (pure a) := fun _ => ⟨0, .zero rfl rfl, Nat.le_refl _, fun _ _ _ => .inl rfl⟩

theorem Loc.fail {e : RErr} (h : ∀ n l, e ≠ .maxNestingDepthExceeded n l) : Loc (M.fail e : M RErr S α) (M.fail e) := fun _ => .inr ⟨0, .zero rfl rfl, ⟨fun n l he => absurd he (h n l), fun _ => Nat.le_refl _⟩, fun _ _ _ => .inl rfl⟩

theorem Loc.oof {m' : M RErr S α} : Loc (M.fail .outOfFuel : M RErr S α) m' := fun _ => .inl rfl

/-- not enough fuel for the second computation -/
theorem Loc.oof' (h : Loc m m') : Loc m (M.fail .outOfFuel) := by
  intro s
  have := h s
  unfold LocAt at *
  cases hm : m.run s with
  | ok a s1 =>
    rw [hm] at this
    obtain ⟨q, h1, h2, h3⟩ := this
    exact ⟨q, h1, h2, fun r t _ => .inr ⟨_, rfl⟩⟩
  | err a s1 =>
    rw [hm] at this
    rcases this with h | ⟨q, h1, h2, h3⟩
    · exact .inl h
    · exact .inr ⟨q, h1, h2, fun r t _ => .inr ⟨_, rfl⟩⟩

theorem LocAt.ite {c : Prop} [Decidable c] {m1 m1' m2 m2' : M RErr S α} (h1 : c → LocAt s m1 m1') (h2 : ¬ c → LocAt s m2 m2') : LocAt s (if c then m1 else m2) (if c then m1' else m2') := by
  split
  · exact h1 ‹_›
  · exact h2 ‹_›

theorem Loc.ite {c : Prop} [Decidable c] {m1 m1' m2 m2' : M RErr S α} (h1 : Loc m1 m1') (h2 : Loc m2 m2') : Loc (if c then m1 else m2) (if c then m1' else m2') :=
  fun s => .ite (fun _ => h1 s) fun _ => h2 s

theorem Loc.ite' {c c' : Prop} [Decidable c] [Decidable c'] {m1 m1' m2 m2' : M RErr S α} (hc : c = c') (h1 : Loc m1 m1') (h2 : Loc m2 m2') : Loc (if c then m1 else m2) (if c' then m1' else m2') := by
  subst hc
  have : ‹Decidable c› = ‹Decidable c› := rfl
  split
  · exact h1
  · exact h2

/-- loops with fuel -/
theorem Loc.loop {γ : Type} {g : Nat → γ → M RErr S α} (h0 : ∀ c, g 0 c = M.fail .outOfFuel)
    (hs : ∀ n n', (∀ c, Loc (g n c) (g n' c)) → ∀ c, Loc (g (n + 1) c) (g (n' + 1) c)) : ∀ n n' c, Loc (g n c) (g n' c) := by
  intro n
  induction n with
  | zero => intro n' c; rw [h0]; exact .oof
  | succ n ih =>
    intro n' c
    cases n' with
    | zero => rw [h0]; exact .oof' (hs n n (fun c => ih n c) c)
    | succ n' => exact hs n n' (fun c => ih n' c) c

end

section
variable {α β : Type} {m m' : R AbsSrc α} {f : St → R AbsSrc β}

theorem LocAt.get {f f' : St → R AbsSrc β} {s : St} (h : ∀ r t, LocAt s (f s) (f' (cutSt s r t))) : LocAt s (M.get >>= f) (M.get >>= f') := by
  unfold LocAt at *
  rw [run_get]
  cases hm : (f s).run s with
  | ok a s1 =>
    simp only [hm] at h
    obtain ⟨q, h1, h2, h3⟩ := h s.src.rest s.src.term
    refine ⟨q, h1, h2, fun r t ha => ?_⟩
    obtain ⟨q', h1', h2', h3'⟩ := h r t
    have : q = q' := by
      have e1 := h1.rest.symm.trans h1'.rest
      have e2 := congrArg List.length e1
      rw [List.length_drop, List.length_drop] at e2
      have := h1.le
      have := h1'.le
      omega
    subst this
    exact h3' r t ha
  | err e s1 =>
    simp only [hm] at h
    by_cases hf : e = .outOfFuel
    · exact .inl hf
    obtain ⟨q, h1, h2, h3⟩ := (h s.src.rest s.src.term).resolve_left hf
    refine .inr ⟨q, h1, h2, fun r t ha => ?_⟩
    obtain ⟨q', h1', h2', h3'⟩ := (h r t).resolve_left hf
    have : q = q' := by
      have e1 := h1.rest.symm.trans h1'.rest
      have e2 := congrArg List.length e1
      rw [List.length_drop, List.length_drop] at e2
      have := h1.le
      have := h1'.le
      omega
    subst this
    exact h3' r t ha

theorem Loc.get {f f' : St → R AbsSrc β} (h : ∀ s r t, Loc (f s) (f' (cutSt s r t))) : Loc (M.get >>= f) (M.get >>= f') := fun s => .get fun r t => h s r t s

theorem Loc.modify {g : St → St} (h1 : ∀ s, (g s).src = s.src) (h2 : ∀ s, s.bytePos ≤ (g s).bytePos) (h3 : ∀ s r t, g (cutSt s r t) = cutSt (g s) r t) : Loc (M.modify g : R AbsSrc Unit) (M.modify g) := by
  intro s
  refine ⟨0, .zero (by show (g s).src.rest = _; rw [h1]; rfl) (by show (g s).src.term = _; rw [h1]; rfl), h2 s, fun r t _ => .inl ?_⟩
  show Res.ok () (g (cutSt s r t)) = _
  rw [h3]
  rfl

theorem Loc.syn {k : SyntaxKind} : Loc (syntaxErr k : R AbsSrc α) (syntaxErr k) := fun _ => .inr ⟨0, .zero rfl rfl, .refl nofun, fun _ _ _ => .inl rfl⟩
theorem Loc.structure {k : StructureKind} : Loc (structureErr k : R AbsSrc α) (structureErr k) := fun _ => .inr ⟨0, .zero rfl rfl, .refl nofun, fun _ _ _ => .inl rfl⟩
theorem Loc.io {e : IoErr} : Loc (ioErr e : R AbsSrc α) (ioErr e) := fun _ => .inr ⟨0, .zero rfl rfl, .refl nofun, fun _ _ _ => .inl rfl⟩
theorem Loc.usage {p : UsagePanic} : Loc (usagePanic p : R AbsSrc α) (usagePanic p) := .fail nofun
theorem Loc.internal {p : InternalPanic} : Loc (internalPanic p : R AbsSrc α) (internalPanic p) := .fail nofun
theorem Loc.unwrap {o : Option α} : Loc (Reader.unwrap o : R AbsSrc α) (Reader.unwrap o) := by
  cases o
  · exact .internal
  · exact .pure _
theorem Loc.adv {a b : Nat} : Loc (advance a b : R AbsSrc Unit) (advance a b) := .modify (fun _ => rfl) (fun _ => Nat.le_add_right ..) fun _ _ _ => rfl

theorem Agree.cons {q : Nat} {s : St} {r : Bytes} {t : Option Nat} {x : UInt8} {l : Bytes} (h : Agree q s r t) (hs : s.src.rest = x :: l) : ∃ r', r = x :: r' := by
  have := h.bytes
  rw [hs] at this
  cases r with
  | nil => simp at this
  | cons y r =>
    rw [List.take_succ_cons, List.take_succ_cons] at this
    injection this with h1
    exact ⟨r, by rw [h1]⟩

theorem Agree.nil {q : Nat} {s : St} {r : Bytes} {t : Option Nat} (h : Agree q s r t) (hs : s.src.rest = []) : r = [] ∧ t = s.src.term := by
  have h1 := h.bytes
  rw [hs] at h1
  refine ⟨?_, h.term (by rw [hs]; exact Nat.zero_le _)⟩
  cases r with
  | nil => rfl
  | cons y r => simp at h1

theorem Loc.peekByte : Loc (peekByte : R AbsSrc _) peekByte := by
  have h : ∀ s : St, (Reader.peekByte : R AbsSrc _).run s = match s.src.rest with
    | b :: _ => .ok (some b) s
    | [] => match s.src.term with | none => .ok none s | some c => .err (.io (.source c) (loc s)) s := by
    rintro ⟨⟨r, t, acc⟩, pk, e, mn, stk, sa, l, col, b, pa, se⟩
    cases r <;> cases t <;> rfl
  intro s
  unfold LocAt
  rw [h]
  cases hr : s.src.rest with
  | cons x r =>
    refine ⟨0, .zero rfl rfl, Nat.le_refl _, fun r' t' ha => .inl ?_⟩
    obtain ⟨r', rfl⟩ := ha.cons hr
    rw [h]
    rfl
  | nil =>
    cases ht : s.src.term with
    | none =>
      refine ⟨0, .zero rfl rfl, Nat.le_refl _, fun r' t' ha => .inl ?_⟩
      obtain ⟨rfl, rfl⟩ := ha.nil hr
      rw [h]
      show (match s.src.term with | none => _ | some c => _) = _
      rw [ht]
      rfl
    | some c =>
      refine .inr ⟨0, .zero rfl rfl, ⟨nofun, fun _ => Nat.le_refl _⟩, fun r' t' ha => .inl ?_⟩
      obtain ⟨rfl, rfl⟩ := ha.nil hr
      rw [h]
      show (match s.src.term with | none => _ | some c => _) = _
      rw [ht]
      rfl

theorem Loc.consume (g : Bytes → UInt8 → Bytes) {m : M SrcErr AbsSrc Unit} (hm : ∀ s, m.run s = match s.rest with
    | b :: t => .ok () { s with rest := t, acc := g s.acc b }
    | [] => .err (.panic (.internal .debugAssert)) s) : Loc (liftS m) (liftS m) := by
  have h : ∀ s : St, (liftS m : R AbsSrc _).run s = match s.src.rest with
    | b :: t => .ok () { s with src := { s.src with rest := t, acc := g s.src.acc b } }
    | [] => .err (.panic (.internal .debugAssert)) s := by
    intro s
    unfold liftS
    dsimp only
    rw [hm]
    cases s.src.rest <;> rfl
  intro s
  unfold LocAt
  rw [h]
  cases hr : s.src.rest with
  | cons x r =>
    refine ⟨1, ⟨?_, ?_, rfl⟩, Nat.le_refl _, fun r' t' ha => .inl ?_⟩
    · show r = s.src.rest.drop 1
      rw [hr]
      rfl
    · show 1 ≤ s.src.rest.length
      rw [hr]
      exact Nat.succ_le_succ (Nat.zero_le _)
    · obtain ⟨r', rfl⟩ := ha.cons hr
      rw [h]
      rfl
  | nil =>
    refine .inr ⟨0, .zero rfl rfl, ⟨nofun, fun _ => Nat.le_refl _⟩, fun r' t' ha => .inl ?_⟩
    obtain ⟨rfl, _⟩ := ha.nil hr
    rw [h]
    rfl

theorem Loc.skipPeekedByte : Loc (skipPeekedByte : R AbsSrc _) skipPeekedByte := .consume (fun a _ => a) fun s => by
  obtain ⟨r, t, acc⟩ := s
  cases r <;> rfl
theorem Loc.vConsume : Loc (liftS ByteSource.vConsume : R AbsSrc _) (liftS ByteSource.vConsume) := .consume (fun a b => a ++ [b]) fun s => by
  obtain ⟨r, t, acc⟩ := s
  cases r <;> rfl
theorem Loc.vPeek : Loc (vPeek : R AbsSrc _) vPeek := Loc.peekByte

/-- operations which only change the collected bytes -/
theorem Loc.acc (g : Bytes → Bytes) {m : M SrcErr AbsSrc Unit} (hm : m = M.modify fun s => { s with acc := g s.acc }) : Loc (liftS m) (liftS m) := by
  subst hm
  exact fun s => ⟨0, .zero rfl rfl, Nat.le_refl _, fun r' t' ha => .inl rfl⟩

theorem Loc.vNew : Loc (liftS ByteSource.vNew : R AbsSrc _) (liftS ByteSource.vNew) := .acc (fun _ => []) rfl
theorem Loc.vSkipPrevious : Loc (liftS ByteSource.vSkipPrevious : R AbsSrc _) (liftS ByteSource.vSkipPrevious) := .acc List.dropLast rfl
theorem Loc.vSkipFinal : Loc (liftS ByteSource.vSkipFinal : R AbsSrc _) (liftS ByteSource.vSkipFinal) := .acc List.dropLast rfl
theorem Loc.vPush {bs : Bytes} : Loc (liftS (ByteSource.vPush bs) : R AbsSrc _) (liftS (ByteSource.vPush bs)) := .acc (· ++ bs) rfl
theorem Loc.vGet {b : Bool} : Loc (liftS (ByteSource.vGet b) : R AbsSrc _) (liftS (ByteSource.vGet b)) := .acc id rfl

theorem Loc.getStr : Loc (liftS ByteSource.getStr : R AbsSrc _) (liftS ByteSource.getStr) := by
  intro s
  have h : ∀ s : St, (liftS ByteSource.getStr : R AbsSrc _).run s = match Utf8.toStrUnchecked s.src.acc with
    | some t => .ok t { s with src := { s.src with acc := [] } }
    | none => .err (.panic (.internal .invalidUtf8)) { s with src := { s.src with acc := [] } } := by
    intro s
    unfold liftS
    dsimp only [ByteSource.getStr]
    unfold AbsSrc.getStr
    dsimp only
    cases Utf8.toStrUnchecked s.src.acc <;> rfl
  unfold LocAt
  rw [h]
  cases hu : Utf8.toStrUnchecked s.src.acc with
  | some x =>
    refine ⟨0, .zero rfl rfl, Nat.le_refl _, fun r' t' ha => .inl ?_⟩
    rw [h]
    show (match Utf8.toStrUnchecked s.src.acc with | some _ => _ | none => _) = _
    rw [hu]
    rfl
  | none =>
    refine .inr ⟨0, .zero rfl rfl, ⟨nofun, fun _ => Nat.le_refl _⟩, fun r' t' ha => .inl ?_⟩
    rw [h]
    show (match Utf8.toStrUnchecked s.src.acc with | some _ => _ | none => _) = _
    rw [hu]
    rfl

theorem Loc.getString : Loc (liftS ByteSource.getString : R AbsSrc _) (liftS ByteSource.getString) := Loc.getStr

theorem Loc.getStrPeek : Loc (liftS ByteSource.getStrPeek : R AbsSrc _) (liftS ByteSource.getStrPeek) := by
  intro s
  have h : ∀ s : St, (liftS ByteSource.getStrPeek : R AbsSrc _).run s = match Utf8.toStrUnchecked s.src.acc with
    | some t => .ok t s
    | none => .err (.panic (.internal .invalidUtf8)) s := by
    intro s
    unfold liftS
    dsimp only [ByteSource.getStrPeek]
    unfold AbsSrc.getStrPeek
    dsimp only
    cases Utf8.toStrUnchecked s.src.acc <;> rfl
  unfold LocAt
  rw [h]
  cases hu : Utf8.toStrUnchecked s.src.acc with
  | some x =>
    refine ⟨0, .zero rfl rfl, Nat.le_refl _, fun r' t' ha => .inl ?_⟩
    rw [h]
    show (match Utf8.toStrUnchecked s.src.acc with | some _ => _ | none => _) = _
    rw [hu]
    rfl
  | none =>
    refine .inr ⟨0, .zero rfl rfl, ⟨nofun, fun _ => Nat.le_refl _⟩, fun r' t' ha => .inl ?_⟩
    rw [h]
    show (match Utf8.toStrUnchecked s.src.acc with | some _ => _ | none => _) = _
    rw [hu]
    rfl

end

/-- combine the rules -/
macro "loc1" : tactic => `(tactic| first
  | (with_reducible assumption) | (with_reducible exact Loc.pure _) | (with_reducible exact Loc.syn) | (with_reducible exact Loc.structure)
  | (with_reducible exact Loc.io) | (with_reducible exact Loc.usage) | (with_reducible exact Loc.internal) | (with_reducible exact Loc.unwrap) | (with_reducible exact Loc.adv)
  | (with_reducible exact Loc.peekByte) | (with_reducible exact Loc.skipPeekedByte) | (with_reducible exact Loc.vPeek) | (with_reducible exact Loc.vConsume) | (with_reducible exact Loc.vNew)
  | (with_reducible exact Loc.vSkipPrevious) | (with_reducible exact Loc.vSkipFinal) | (with_reducible exact Loc.vPush) | (with_reducible exact Loc.vGet) | (with_reducible exact Loc.getStr)
  | (with_reducible exact Loc.getString) | (with_reducible exact Loc.getStrPeek)
  | (with_reducible refine Loc.get fun _ _ _ => ?_) | (with_reducible refine Loc.bind ?_ fun _ => ?_) | (with_reducible refine Loc.ite ?_ ?_) | (with_reducible refine Loc.ite' ?_ ?_ ?_) | (show _ = _; rfl) | split | (show Loc _ _; dsimp only))

macro "loc" : tactic => `(tactic| repeat (any_goals loc1))

theorem loc_readByte {k : SyntaxKind} : Loc (readByte k : R AbsSrc _) (readByte k) := by
  unfold readByte; loc

theorem loc_checkValid {o : Option Bool} {bs : Bytes} : Loc (checkValid o bs : R AbsSrc _) (checkValid o bs) := by unfold checkValid; loc

section
variable {rb : SyntaxKind → R AbsSrc UInt8} (hrb : ∀ k, Loc (rb k) (rb k))
include hrb

theorem loc_multibyte {b : UInt8} : Loc (readUtf8Multibyte rb b) (readUtf8Multibyte rb b) := by
  unfold readUtf8Multibyte; loc <;> first | exact hrb _ | exact loc_checkValid

theorem loc_hex : Loc (readHexByte rb) (readHexByte rb) := by
  unfold readHexByte parseHexDigit; loc; exact hrb _

theorem loc_escape : Loc (readUnicodeEscape rb) (readUnicodeEscape rb) := by
  have := loc_hex hrb
  unfold readUnicodeEscape; loc

omit hrb in
theorem loc_escapedChar {c n : Nat} : Loc (escapedChar c n : R AbsSrc _) (escapedChar c n) := by unfold escapedChar; loc

theorem loc_escapeChar : Loc (readUnicodeEscapeChar rb) (readUnicodeEscapeChar rb) := by
  have := loc_escape hrb
  have h2 : ∀ n, Loc (readLowSurrogate rb n) (readLowSurrogate rb n) := by
    intro n
    unfold readLowSurrogate; loc; exact loc_escapedChar
  unfold readUnicodeEscapeChar; loc <;> with_reducible first | exact hrb _ | exact h2 _ | exact loc_escapedChar

end

theorem loc_skipToByte {b : UInt8} {cr : Bool} : Loc (skipToByte b cr : R AbsSrc _) (skipToByte b cr) := by
  have := loc_multibyte (fun k => @loc_readByte k) (b := b)
  unfold skipToByte; loc
  · exact .modify (fun s => rfl) (fun s => Nat.le_succ _) fun s r t => rfl
  · exact .modify (fun s => rfl) (fun s => Nat.le_succ _) fun s r t => rfl
  · exact .modify (fun s => rfl) (fun s => Nat.le_succ _) fun s r t => rfl

theorem loc_skipToLoop {stop : UInt8 → Bool} {k : Option SyntaxKind} : ∀ n n' cr, Loc (skipToLoop stop k n cr : R AbsSrc _) (skipToLoop stop k n' cr) :=
  Loc.loop (fun _ => by rw [skipToLoop]) fun n n' ih cr => by
    unfold skipToLoop; loc
    · exact loc_skipToByte
    · exact ih _

theorem loc_skipTo {stop : UInt8 → Bool} {k : Option SyntaxKind} : Loc (skipTo stop k : R AbsSrc _) (skipTo stop k) := by
  unfold skipTo; loc; exact loc_skipToLoop _ _ _

theorem loc_block : ∀ n n', Loc (skipToBlockCommentEnd n : R AbsSrc _) (skipToBlockCommentEnd n') := fun n n' =>
  Loc.loop (g := fun n (_ : Unit) => skipToBlockCommentEnd n) (fun _ => by rw [skipToBlockCommentEnd]) (fun n n' ih _ => by
    have := ih ()
    rw [skipToBlockCommentEnd, skipToBlockCommentEnd]; loc
    exact loc_skipTo) n n' ()

theorem loc_comment {k : Option SyntaxKind} : Loc (skipComment k : R AbsSrc _) (skipComment k) := by
  unfold skipComment skipToLineCommentEnd; loc
  · exact loc_readByte
  · exact loc_block _ _
  · exact loc_skipTo

theorem loc_wsLoop {k : Option SyntaxKind} (n n' : Nat) : Loc (skipWhitespaceLoop k n : R AbsSrc _) (skipWhitespaceLoop k n') :=
  Loc.loop (g := fun n (_ : Unit) => skipWhitespaceLoop k n) (fun _ => by rw [skipWhitespaceLoop]) (fun n n' ih _ => by
    have := ih ()
    unfold skipWhitespaceLoop; loc
    · exact loc_skipTo
    · exact loc_comment) n n' ()

theorem loc_ws {k : Option SyntaxKind} : Loc (skipWhitespace k : R AbsSrc _) (skipWhitespace k) := by
  unfold skipWhitespace; loc; exact loc_wsLoop _ _

theorem loc_ws' {k : SyntaxKind} : Loc (skipWhitespaceNoEof k : R AbsSrc _) (skipWhitespaceNoEof k) := by
  have := loc_ws (k := some k)
  unfold skipWhitespaceNoEof; loc

theorem loc_separator {k : SyntaxKind} : Loc (verifyValueSeparator k : R AbsSrc _) (verifyValueSeparator k) := by
  unfold verifyValueSeparator; loc

theorem loc_lit {bs : Bytes} : Loc (consumeLiteral bs : R AbsSrc _) (consumeLiteral bs) := by
  have h1 := @loc_separator .trailingDataAfterLiteral
  have h2 : ∀ bs, Loc (consumeLiteralBytes bs : R AbsSrc _) (consumeLiteralBytes bs) := by
    intro bs
    induction bs with
    | nil => exact Loc.pure _
    | cons b bs ih =>
      have := @loc_readByte .invalidLiteral
      rw [consumeLiteralBytes]; loc
  have := h2 bs
  unfold consumeLiteral; loc

theorem loc_afterName : Loc (afterName : R AbsSrc _) afterName := by
  have := @loc_ws' .missingColon
  unfold afterName; loc

theorem loc_classify {b : UInt8} : Loc (classify b : R AbsSrc _) (classify b) := by
  have h := fun bs => @loc_lit bs
  unfold classify; loc <;> exact h _

/-! ## Peeking -/

theorem m_ext {ε S α : Type} {m m' : M ε S α} (h : ∀ s, m.run s = m'.run s) : m = m' := by
  cases m; cases m'
  exact congrArg _ (funext h)

theorem finishPeek_eq {c : Bool} {q : Option (Nat × Nat × Nat)} {p : Peeked × Bool} : (finishPeek c q p : R AbsSrc _) = (do
  let s ← M.get
  let setPeeked : R AbsSrc (Option Peeked) := do
    (if p.2 then skipPeekedByte else pure ())
    M.modify fun s => { s with peeked := some p.1 }
    pure (some p.1)
  if p.1 == .arrayEnd || p.1 == .objectEnd then
    match q with
    | some (line, column, bytePos) =>
      if !s.settings.allowTrailingComma then ⟨fun s => .err (.syntax .trailingCommaNotEnabled (loc { s with line, column, bytePos })) { s with line, column, bytePos }⟩
      else setPeeked
    | none => setPeeked
  else if c && q.isNone then syntaxErr .missingComma
  else setPeeked) := by
  refine m_ext fun s => ?_
  unfold finishPeek
  rw [run_get, run_get]
  dsimp only
  split
  · split
    · split <;> rfl
    · rfl
  · rfl

theorem Loc.errAt {α : Type} {g : St → RErr × St} (h1 : ∀ s, (g s).2.src = s.src) (h2 : ∀ s n l, (g s).1 ≠ .maxNestingDepthExceeded n l) (h2' : ∀ s, (g s).1.fatal = true)
    (h3 : ∀ s r t, g (cutSt s r t) = ((g s).1, cutSt (g s).2 r t)) : Loc (⟨fun s => .err (g s).1 (g s).2⟩ : R AbsSrc α) ⟨fun s => .err (g s).1 (g s).2⟩ := by
  intro s
  refine .inr ⟨0, .zero (by show (g s).2.src.rest = _; rw [h1]; rfl) (by show (g s).2.src.term = _; rw [h1]; rfl), ⟨fun n l he => absurd he (h2 s n l), fun hf => by rw [h2' s] at hf; cases hf⟩, fun r t _ => .inl ?_⟩
  show Res.err (g (cutSt s r t)).1 (g (cutSt s r t)).2 = _
  rw [h3]
  rfl

theorem loc_finishPeek {c : Bool} {q : Option (Nat × Nat × Nat)} {p : Peeked × Bool} : Loc (finishPeek c q p : R AbsSrc _) (finishPeek c q p) := by
  rw [finishPeek_eq]
  have h : Loc (M.modify fun s => { s with peeked := some p.1 } : R AbsSrc Unit) (M.modify fun s => { s with peeked := some p.1 }) := .modify (fun _ => rfl) (fun _ => Nat.le_refl _) fun _ _ _ => rfl
  loc
  exact .errAt (g := fun s => (_, _)) (fun _ => rfl) (fun _ _ _ => nofun) (fun _ => rfl) fun _ _ _ => rfl

theorem loc_peekToken : Loc (peekToken : R AbsSrc _) peekToken := by
  unfold peekToken
  refine .bind loc_ws fun b => ?_
  cases b with
  | none => exact .pure _
  | some b =>
    loc
    · exact loc_ws'
    · exact loc_classify
    · exact loc_finishPeek
    · exact loc_classify
    · exact loc_finishPeek

theorem loc_pio : Loc (peekInternalOptional : R AbsSrc _) peekInternalOptional := by
  have := loc_peekToken; have := loc_afterName
  unfold peekInternalOptional; loc

theorem loc_peekInternal : Loc (peekInternal : R AbsSrc _) peekInternal := by
  have := loc_pio
  unfold peekInternal; loc

theorem loc_mapPeeked {p : Peeked} : Loc (mapPeeked p : R AbsSrc _) (mapPeeked p) := by
  unfold mapPeeked; cases p <;> loc

theorem peekInternal_ok {s s' : St} {p : Peeked} (h : (peekInternal : R AbsSrc _).run s = .ok p s') : s'.peeked = some p := by
  unfold peekInternal at h
  rw [M.run_bind] at h
  cases h1 : (peekInternalOptional : R AbsSrc _).run s with
  | err e s1 => rw [h1] at h; cases h
  | ok o s1 =>
    rw [h1] at h
    cases o with
    | some p =>
      cases h
      rcases pio_ok h1 with h2 | ⟨rfl, h2, _⟩
      · exact h2.peeked
      · exact h2
    | none =>
      dsimp only at h
      rw [run_get] at h
      split at h <;> cases h

theorem consumePeeked_eq : (consumePeeked : R AbsSrc _) = (do
  let s ← M.get
  let p ← unwrap s.peeked
  M.modify fun s => { s with peeked := none, column := s.column + peekedLength p, bytePos := s.bytePos + peekedLength p }) := by
  refine m_ext fun s => ?_
  unfold consumePeeked
  rw [run_get, run_get]
  cases s.peeked <;> rfl

theorem loc_consumePeeked : Loc (consumePeeked : R AbsSrc _) consumePeeked := by
  rw [consumePeeked_eq]; loc
  exact .modify (fun _ => rfl) (fun _ => Nat.le_add_right ..) fun _ _ _ => rfl

theorem onValueEnd_eq : (onValueEnd : R AbsSrc _) = (do
  let s ← M.get
  let path ← (match isInArray s, s.path with
    | true, some p =>
      match p with
      | .arrayItem i :: ps => pure (some (.arrayItem (i + 1) :: ps))
      | .objectMember _ :: _ => internalPanic .unreachable
      | [] => internalPanic .unwrapNone
    | _, p => pure p)
  M.modify fun s => { s with path, expectsMemberName := if isInObject s then true else s.expectsMemberName, isEmpty := false }) := by
  refine m_ext fun s => ?_
  unfold onValueEnd
  rw [run_get, run_get]
  cases isInArray s with
  | false => rfl
  | true =>
    cases s.path with
    | none => rfl
    | some p =>
      cases p with
      | nil => rfl
      | cons x p => cases x <;> rfl

theorem loc_onValueEnd : Loc (onValueEnd : R AbsSrc _) onValueEnd := by
  rw [onValueEnd_eq]
  refine .get fun s r t => .bind ?_ fun _ => ?_
  · show Loc (match isInArray s, s.path with
      | true, some p =>
        match p with
        | .arrayItem i :: ps => pure (some (.arrayItem (i + 1) :: ps))
        | .objectMember _ :: _ => internalPanic .unreachable
        | [] => internalPanic .unwrapNone
      | _, p => pure p : R AbsSrc _) (match isInArray s, s.path with
      | true, some p =>
        match p with
        | .arrayItem i :: ps => pure (some (.arrayItem (i + 1) :: ps))
        | .objectMember _ :: _ => internalPanic .unreachable
        | [] => internalPanic .unwrapNone
      | _, p => pure p : R AbsSrc _)
    split
    · split <;> loc
    · loc
  · exact .modify (fun _ => rfl) (fun _ => Nat.le_refl _) fun _ _ _ => rfl

theorem setPathName_eq {n : Text} : (setPathName n : R AbsSrc _) = (do
  let s ← M.get
  match s.path with
  | none => pure ()
  | some (.objectMember _ :: ps) => M.modify fun s => { s with path := some (.objectMember n :: ps) }
  | some (.arrayItem _ :: _) => internalPanic .unreachable
  | some [] => internalPanic .unwrapNone) := by
  refine m_ext fun s => ?_
  unfold setPathName
  rw [run_get, run_get]
  cases h : s.path with
  | none => rfl
  | some p =>
    cases p with
    | nil => rfl
    | cons x p => cases x <;> rfl

theorem loc_setPathName {n : Text} : Loc (setPathName n : R AbsSrc _) (setPathName n) := by
  rw [setPathName_eq]
  refine .get fun s r t => ?_
  dsimp only [cutSt]
  loc
  exact .modify (fun _ => rfl) (fun _ => Nat.le_refl _) fun _ _ _ => rfl

theorem LocAt.unexpected {α : Type} {s : St} {a b : ValueType} {r : Bytes} {t : Option Nat} :
    LocAt s (M.fail (.unexpectedValueType a b (Reader.loc s)) : R AbsSrc α) (M.fail (.unexpectedValueType a b (Reader.loc (cutSt s r t)))) :=
  .inr ⟨0, .zero rfl rfl, .refl nofun, fun _ _ _ => .inl rfl⟩

theorem loc_start {v : ValueType} {c : Bool} (hc : c = true → v = .array ∨ v = .object) : Loc (startExpectedValueType v c : R AbsSrc _) (startExpectedValueType v c) := by
  unfold startExpectedValueType
  refine .get fun s0 r0 t0 => .ite Loc.usage fun s => ?_
  refine (loc_peekInternal s).bind fun p s1 h1 => ?_
  have h1 := peekInternal_ok h1
  refine (loc_mapPeeked s1).bind fun w s2 h2 => ?_
  have hp : s2 = s1 ∧ (c = true → w = v → p = .arrayStart ∨ p = .objectStart) := by
    cases p <;> cases h2 <;> refine ⟨rfl, fun h h' => ?_⟩ <;> first | exact .inl rfl | exact .inr rfl | (subst h'; rcases hc h with h | h <;> cases h)
  obtain ⟨rfl, hp⟩ := hp
  refine .get fun r t => ?_
  refine .ite (fun hw => ?_) fun _ => .unexpected
  have hw : w = v := by simpa using hw
  show LocAt s2 (match (if c then depthExceeded s2 else none) with | some max => _ | none => _) (match (if c then depthExceeded s2 else none) with | some max => _ | none => _)
  cases c with
  | false => exact Loc.bind loc_consumePeeked (fun _ => .pure _) s2
  | true =>
    simp only [if_true]
    cases hd : depthExceeded s2 with
    | none => exact Loc.bind loc_consumePeeked (fun _ => .pure _) s2
    | some max =>
      refine .inr ⟨0, .zero rfl rfl, .refl fun n l he => ?_, fun _ _ _ => .inl rfl⟩
      cases he
      refine ⟨rfl, hd, ?_⟩
      rw [show (HasSt.st s2).peeked = _ from h1]
      rcases hp rfl hw with h | h <;> rw [h] <;> simp

theorem loc_begin {v : ValueType} {x : StackValue} (hv : v = .array ∨ v = .object) : Loc (onContainerStart v x : R AbsSrc _) (onContainerStart v x) := by
  unfold onContainerStart; loc
  · exact loc_start fun _ => hv
  · exact .modify (fun _ => rfl) (fun _ => Nat.le_refl _) fun _ _ _ => rfl

theorem loc_end : Loc (onContainerEnd : R AbsSrc _) onContainerEnd := by
  have := loc_onValueEnd
  unfold onContainerEnd; loc
  exact .modify (fun _ => rfl) (fun _ => Nat.le_refl _) fun _ _ _ => rfl

/-! ## Strings -/

theorem loc_readStringBytes : Loc (readStringBytes : R AbsSrc _) readStringBytes := by
  have h1 := fun k => @loc_readByte k
  have h2 := fun b => @loc_multibyte _ h1 b
  have h3 := @loc_escapeChar _ h1
  unfold readStringBytes; loc <;> with_reducible first | exact h1 _ | exact h2 _

theorem loc_skipAllStringBytes : Loc (skipAllStringBytes : R AbsSrc _) skipAllStringBytes := by
  have h : ∀ n n', Loc (skipAllStringBytesLoop n : R AbsSrc _) (skipAllStringBytesLoop n') := fun n n' =>
    Loc.loop (g := fun n (_ : Unit) => skipAllStringBytesLoop n) (fun _ => by rw [skipAllStringBytesLoop]) (fun n n' ih _ => by
      have := ih (); have := loc_readStringBytes
      unfold skipAllStringBytesLoop; loc) n n' ()
  unfold skipAllStringBytes; loc; exact h _ _

theorem loc_vReadByte {k : SyntaxKind} : Loc (vReadByte k : R AbsSrc _) (vReadByte k) := by unfold vReadByte; loc

theorem loc_vReadByteSkip {k : SyntaxKind} : Loc (vReadByteSkip k : R AbsSrc _) (vReadByteSkip k) := by
  have := @loc_vReadByte k
  unfold vReadByteSkip; loc

theorem loc_readStringEscape : Loc (readStringEscape : R AbsSrc _) readStringEscape := by
  have h1 := fun k => @loc_vReadByte k
  have h3 := @loc_escapeChar _ (fun k => @loc_vReadByteSkip k)
  unfold readStringEscape; loc <;> with_reducible exact h1 _

theorem loc_readString {b : Bool} : Loc (readString b : R AbsSrc _) (readString b) := by
  have h : ∀ n n', Loc (readStringLoop b n : R AbsSrc _) (readStringLoop b n') := fun n n' =>
    Loc.loop (g := fun n (_ : Unit) => readStringLoop b n) (fun _ => by rw [readStringLoop]) (fun n n' ih _ => by
      have := ih (); have := loc_readStringEscape
      have h1 := fun k => @loc_vReadByte k
      have h2 := fun b => @loc_multibyte _ h1 b
      unfold readStringLoop; loc <;> with_reducible first | exact h1 _ | exact h2 _) n n' ()
  unfold readString; loc; exact h _ _

/-! ## Numbers -/

theorem Loc.numberNext {consume : R AbsSrc Unit} {peek : R AbsSrc (Option UInt8)} (h1 : Loc consume consume) (h2 : Loc peek peek) : Loc (numberNext consume peek) (numberNext consume peek) := by
  rintro ⟨s, c⟩
  have := Loc.bind h1 (fun _ => h2) s
  unfold LocAt at *
  unfold Reader.numberNext
  dsimp only
  cases hm : (do consume; peek : R AbsSrc (Option UInt8)).run s with
  | ok b s' =>
    rw [hm] at this
    obtain ⟨q, h3, h4, h5⟩ := this
    refine ⟨q, h3, h4, fun r t ha => ?_⟩
    dsimp only [HasSt.cut] at h5 ⊢
    rcases h5 r t ha with h | ⟨s2, h⟩
    · rw [h]; exact .inl rfl
    · rw [h]; exact .inr ⟨_, rfl⟩
  | err e s' =>
    rw [hm] at this
    rcases this with h | ⟨q, h3, h4, h5⟩
    · exact .inl h
    · refine .inr ⟨q, h3, h4, fun r t ha => ?_⟩
      dsimp only [HasSt.cut] at h5 ⊢
      rcases h5 r t ha with h | ⟨s2, h⟩
      · rw [h]; exact .inl rfl
      · rw [h]; exact .inr ⟨_, rfl⟩

section
open JsonNumber
variable {next : M RErr (St × Nat) (Option UInt8)} (hn : Loc next next)
include hn

theorem loc_digits (n n' : Nat) : Loc (consumeDigits next .outOfFuel n) (consumeDigits next .outOfFuel n') :=
  Loc.loop (g := fun n (_ : Unit) => consumeDigits next .outOfFuel n) (fun _ => by rw [consumeDigits]) (fun n n' ih _ => by
    have := ih ()
    unfold consumeDigits; loc) n n' ()

theorem loc_expDigits (n n' c : Nat) : Loc (consumeExpDigits next .outOfFuel n c) (consumeExpDigits next .outOfFuel n' c) :=
  Loc.loop (g := fun n c => consumeExpDigits next .outOfFuel n c) (fun _ => by rw [consumeExpDigits]) (fun n n' ih c => by
    unfold consumeExpDigits; loc <;> exact ih _) n n' c

omit hn in
theorem loc_finish {c : Nat} {b : UInt8} : Loc (finish c b : M RErr (St × Nat) _) (finish c b) := by unfold finish; loc

theorem loc_exponentDigits (n n' : Nat) (b : UInt8) : Loc (exponentDigits next .outOfFuel n b) (exponentDigits next .outOfFuel n' b) := by
  have := loc_expDigits hn n n'
  unfold exponentDigits; loc
  · exact this _
  · exact this _
  · exact loc_finish

theorem loc_exponentPart (n n' : Nat) (b : UInt8) : Loc (exponentPart next .outOfFuel n b) (exponentPart next .outOfFuel n' b) := by
  have := loc_exponentDigits hn n n'
  unfold exponentPart; loc
  · exact this _
  · exact this _
  · exact loc_finish

theorem loc_fractionPart (n n' : Nat) (b : UInt8) : Loc (fractionPart next .outOfFuel n b) (fractionPart next .outOfFuel n' b) := by
  have h1 := loc_digits hn n n'
  have h2 := loc_exponentPart hn n n'
  unfold fractionPart; loc <;> exact h2 _

theorem loc_integerPart (n n' : Nat) (b : UInt8) : Loc (integerPart next .outOfFuel n b) (integerPart next .outOfFuel n' b) := by
  have h1 := loc_digits hn n n'
  have h2 := loc_fractionPart hn n n'
  unfold integerPart; loc <;> exact h2 _

theorem loc_jsonNumber (n n' : Nat) (b : UInt8) : Loc (consumeJsonNumber next .outOfFuel n b) (consumeJsonNumber next .outOfFuel n' b) := by
  have h2 := loc_integerPart hn n n'
  unfold consumeJsonNumber; loc <;> exact h2 _

end

theorem loc_consumeNumber {create consume : R AbsSrc Unit} {peek : R AbsSrc (Option UInt8)} (h0 : Loc create create) (h1 : Loc consume consume) (h2 : Loc peek peek) :
    Loc (consumeNumber create consume peek) (consumeNumber create consume peek) := by
  unfold consumeNumber
  refine .bind .peekByte fun o => .bind .unwrap fun b => .bind h0 fun _ => .bind ?_ fun r => ?_
  · intro s
    have h3 := fun n n' => loc_jsonNumber (.numberNext h1 h2) n n' b (s, 0)
    unfold LocAt at *
    dsimp only
    cases hm : (JsonNumber.consumeJsonNumber (numberNext consume peek) .outOfFuel (fuel s) b).run (s, 0) with
    | ok r s' =>
      have h4 := fun n' => h3 (fuel s) n'
      simp only [hm] at h4
      obtain ⟨q, h5, h6, _⟩ := h4 0
      refine ⟨q, h5, h6, fun r' t' ha => ?_⟩
      obtain ⟨q', h7, _, h8⟩ := h4 (fuel (cutSt s r' t'))
      have : q = q' := by
        have e2 := congrArg List.length (h5.rest.symm.trans h7.rest)
        rw [List.length_drop, List.length_drop] at e2
        have := h5.le
        have := h7.le
        omega
      subst this
      dsimp only [HasSt.cut] at h8 ⊢
      rcases h8 r' t' ha with h | ⟨s2, h⟩
      · rw [h]; exact .inl rfl
      · rw [h]; exact .inr ⟨_, rfl⟩
    | err e s' =>
      have h4 := fun n' => h3 (fuel s) n'
      simp only [hm] at h4
      by_cases he : e = .outOfFuel
      · exact .inl he
      obtain ⟨q, h5, h6, _⟩ := (h4 0).resolve_left he
      refine .inr ⟨q, h5, h6, fun r' t' ha => ?_⟩
      obtain ⟨q', h7, _, h8⟩ := (h4 (fuel (cutSt s r' t'))).resolve_left he
      have : q = q' := by
        have e2 := congrArg List.length (h5.rest.symm.trans h7.rest)
        rw [List.length_drop, List.length_drop] at e2
        have := h5.le
        have := h7.le
        omega
      subst this
      dsimp only [HasSt.cut] at h8 ⊢
      rcases h8 r' t' ha with h | ⟨s2, h⟩
      · rw [h]; exact .inl rfl
      · rw [h]; exact .inr ⟨_, rfl⟩
  · loc

theorem loc_finishNumber {n : Nat} : Loc (finishNumber n : R AbsSrc _) (finishNumber n) := by
  have := loc_onValueEnd; have := @loc_separator .trailingDataAfterNumber
  unfold finishNumber; loc

theorem Loc.unsupported {α : Type} {n : Text} : Loc (M.get >>= fun s => M.fail (.unsupportedNumberValue n (Reader.loc s)) : R AbsSrc α) (M.get >>= fun s => M.fail (.unsupportedNumberValue n (Reader.loc s))) :=
  fun _ => .inr ⟨0, .zero rfl rfl, .refl nofun, fun _ _ _ => .inl rfl⟩

theorem loc_readNumberBytes {b : Bool} : Loc (readNumberBytes b : R AbsSrc _) (readNumberBytes b) := by
  unfold readNumberBytes
  refine .bind (loc_start nofun) fun _ => .bind (loc_consumeNumber .vNew .vConsume .vPeek) fun p => ?_
  obtain ⟨a, c⟩ := p
  refine .get fun _ _ _ => .ite (.bind .vGet fun _ => .bind .getString fun _ => .unsupported) (.bind .vGet fun _ => loc_finishNumber)

theorem loc_skipNumber : Loc (skipNumber : R AbsSrc _) skipNumber := by
  unfold skipNumber
  refine .bind (loc_start nofun) fun _ => .bind (loc_consumeNumber (.pure _) .skipPeekedByte .peekByte) fun p => loc_finishNumber

/-! ## Methods -/

theorem loc_peek : Loc (peek : R AbsSrc _) peek := by
  have := loc_peekInternal
  unfold peek; loc; exact loc_mapPeeked

theorem loc_beginArray : Loc (beginArray : R AbsSrc _) beginArray := by
  unfold beginArray; loc
  · exact loc_begin (.inl rfl)
  · exact .modify (fun _ => rfl) (fun _ => Nat.le_refl _) fun _ _ _ => rfl

theorem loc_beginObject : Loc (beginObject : R AbsSrc _) beginObject := by
  unfold beginObject; loc
  · exact loc_begin (.inr rfl)
  · exact .modify (fun _ => rfl) (fun _ => Nat.le_refl _) fun _ _ _ => rfl

theorem loc_endArray : Loc (endArray : R AbsSrc _) endArray := by
  have := loc_peekInternal; have := loc_consumePeeked; have := loc_end
  unfold endArray; loc

theorem loc_endObject : Loc (endObject : R AbsSrc _) endObject := by
  have := loc_peekInternal; have := loc_consumePeeked; have := loc_end
  unfold endObject; loc
  exact .modify (fun _ => rfl) (fun _ => Nat.le_refl _) fun _ _ _ => rfl

theorem loc_hasNext : Loc (hasNext : R AbsSrc _) hasNext := by
  have := loc_peekInternal; have := loc_pio
  unfold hasNext
  refine .get fun s r t => .ite' rfl .usage (.bind (.ite' rfl (.ite' rfl .usage (.ite' rfl .usage loc_pio)) (.bind loc_peekInternal fun _ => .pure _)) fun o => ?_)
  cases o with
  | none => exact .pure _
  | some p => loc

theorem loc_beforeName : Loc (beforeName : R AbsSrc _) beforeName := by
  have := loc_hasNext; have := loc_consumePeeked
  unfold beforeName; loc
  exact .modify (fun _ => rfl) (fun _ => Nat.le_refl _) fun _ _ _ => rfl

theorem loc_nextNameOwned : Loc (nextNameOwned : R AbsSrc _) nextNameOwned := by
  have := loc_beforeName; have := @loc_readString false
  unfold nextNameOwned; loc; exact loc_setPathName

theorem loc_nextName : Loc (nextName : R AbsSrc _) nextName := by
  have := loc_beforeName; have := @loc_readString true
  unfold nextName; loc; exact loc_setPathName

theorem loc_nextBool : Loc (nextBool : R AbsSrc _) nextBool := by
  have := loc_onValueEnd; have h := @loc_start .boolean false nofun
  unfold nextBool; loc

theorem loc_nextNull : Loc (nextNull : R AbsSrc _) nextNull := by
  have := loc_onValueEnd; have h := @loc_start .null false nofun
  unfold nextNull; loc

theorem loc_skipName : Loc (skipName : R AbsSrc _) skipName := by
  have := loc_beforeName; have := @loc_readString false; have := loc_skipAllStringBytes
  unfold skipName; loc; exact loc_setPathName

theorem loc_nextString : Loc (nextString : R AbsSrc _) nextString := by
  have := loc_onValueEnd; have h := @loc_start .string false nofun; have := @loc_readString false
  unfold nextString; loc

theorem loc_nextStr : Loc (nextStr : R AbsSrc _) nextStr := by
  have := loc_onValueEnd; have h := @loc_start .string false nofun; have := @loc_readString true
  unfold nextStr; loc

theorem loc_nextNumberAsString : Loc (nextNumberAsString : R AbsSrc _) nextNumberAsString := by
  have := @loc_readNumberBytes false
  unfold nextNumberAsString; loc

theorem loc_nextNumberAsStr : Loc (nextNumberAsStr : R AbsSrc _) nextNumberAsStr := by
  have := @loc_readNumberBytes true
  unfold nextNumberAsStr; loc

theorem loc_skipValueStart : Loc (skipValueStart : R AbsSrc _) skipValueStart := by
  have := loc_peek; have := loc_beginArray; have := loc_beginObject; have := loc_onValueEnd; have h := @loc_start .string false nofun
  have := loc_skipAllStringBytes; have := loc_skipNumber; have := loc_nextBool; have := loc_nextNull
  unfold skipValueStart; loc

theorem loc_endContainer : Loc (endContainer : R AbsSrc _) endContainer := by
  have := loc_endArray; have := loc_endObject
  unfold endContainer; loc

theorem loc_skipNameIfExpected : Loc (skipNameIfExpected : R AbsSrc _) skipNameIfExpected := by
  have := loc_skipName
  unfold skipNameIfExpected; loc

theorem loc_atContainerEnd {d : Nat} : Loc (atContainerEnd d : R AbsSrc _) (atContainerEnd d) := by
  have := loc_hasNext
  unfold atContainerEnd; loc

theorem loc_skipValueLoop (n n' d : Nat) : Loc (skipValueLoop n d : R AbsSrc _) (skipValueLoop n' d) :=
  Loc.loop (g := fun n d => skipValueLoop n d) (fun _ => by rw [skipValueLoop]) (fun n n' ih d => by
    have := @loc_atContainerEnd d; have := loc_endContainer; have := loc_skipNameIfExpected; have := loc_skipValueStart
    unfold skipValueLoop; loc
    exact ih _) n n' d

theorem loc_skipValue : Loc (skipValue : R AbsSrc _) skipValue := by
  unfold skipValue; loc; exact loc_skipValueLoop _ _ _

theorem loc_skipItems (n n' : Nat) : Loc (skipItems n : R AbsSrc _) (skipItems n') :=
  Loc.loop (g := fun n (_ : Unit) => skipItems n) (fun _ => by rw [skipItems]) (fun n n' ih _ => by
    have := ih (); have := loc_hasNext; have := loc_skipValue
    unfold skipItems; loc) n n' ()

theorem loc_skipMembers (n n' : Nat) : Loc (skipMembers n : R AbsSrc _) (skipMembers n') :=
  Loc.loop (g := fun n (_ : Unit) => skipMembers n) (fun _ => by rw [skipMembers]) (fun n n' ih _ => by
    have := ih (); have := loc_hasNext; have := loc_skipName; have := loc_skipValue
    unfold skipMembers; loc) n n' ()

theorem loc_finishArray : Loc (finishArray : R AbsSrc _) finishArray := by
  have := loc_endArray
  unfold finishArray; loc; exact loc_skipItems _ _

theorem loc_finishObject : Loc (finishObject : R AbsSrc _) finishObject := by
  have := loc_endObject
  unfold finishObject; loc; exact loc_skipMembers _ _

theorem loc_skipToTopLevelLoop : ∀ n, Loc (skipToTopLevelLoop n : R AbsSrc _) (skipToTopLevelLoop n)
  | 0 => by
    unfold skipToTopLevelLoop; loc; exact .oof
  | n + 1 => by
    have := loc_finishArray; have := loc_finishObject; have := loc_skipToTopLevelLoop n
    unfold skipToTopLevelLoop
    refine .get fun s r t => ?_
    dsimp only [cutSt]
    loc

theorem loc_skipToTopLevel : Loc (skipToTopLevel : R AbsSrc _) skipToTopLevel := by
  have := loc_skipValue
  unfold skipToTopLevel
  refine .get fun s r t => .ite .usage (.bind (.ite' rfl this (.pure _)) fun _ => loc_skipToTopLevelLoop _)

theorem loc_trailing : Loc (consumeTrailingWhitespace : R AbsSrc _) consumeTrailingWhitespace := by
  have := @loc_ws none
  unfold consumeTrailingWhitespace; loc

theorem loc_seekItems {i : Nat} : ∀ n, Loc (seekItems i n : R AbsSrc _) (seekItems i n)
  | 0 => by
    have := loc_hasNext
    unfold seekItems; loc
  | n + 1 => by
    have := loc_hasNext; have := loc_skipValue; have := @loc_seekItems i n
    unfold seekItems; loc

theorem loc_seekMembers {name : Text} (n n' : Nat) : Loc (seekMembers name n : R AbsSrc _) (seekMembers name n') :=
  Loc.loop (g := fun n (_ : Unit) => seekMembers name n) (fun _ => by rw [seekMembers]) (fun n n' ih _ => by
    have := ih (); have := loc_hasNext; have := loc_nextName; have := loc_skipValue
    unfold seekMembers; loc) n n' ()

theorem loc_seekTo {path : List PathPiece} : Loc (seekTo path : R AbsSrc _) (seekTo path) := by
  have h : ∀ path, Loc (seekToLoop path : R AbsSrc _) (seekToLoop path) := by
    intro path
    induction path with
    | nil => exact .pure _
    | cons p ps ih =>
      unfold seekToLoop
      refine .bind ?_ fun _ => ih
      cases p with
      | arrayItem i => exact .bind loc_beginArray fun _ => loc_seekItems _
      | objectMember n => exact .bind loc_beginObject fun _ => .get fun _ _ _ => loc_seekMembers _ _
  have := h path; have := loc_peek
  unfold seekTo; loc

theorem loc_seekBack {path : List PathPiece} : Loc (seekBack path : R AbsSrc _) (seekBack path) := by
  unfold seekBack
  generalize path.reverse = l
  induction l with
  | nil => exact .pure _
  | cons p ps ih =>
    cases p with
    | arrayItem i => exact .bind loc_finishArray fun _ => ih
    | objectMember n => exact .bind loc_finishObject fun _ => ih

theorem loc_strConsume {len : Nat} : ∀ bs sr out, Loc (strConsume len bs sr out : R AbsSrc _) (strConsume len bs sr out)
  | [], _, _ => .pure _
  | b :: bs, sr, out => by
    unfold strConsume; loc <;> exact loc_strConsume _ _ _

theorem loc_strReadLoop {len : Nat} : ∀ n sr out, Loc (strReadLoop len n sr out : R AbsSrc _) (strReadLoop len n sr out)
  | 0, _, _ => by unfold strReadLoop; loc; exact .oof
  | n + 1, sr, out => by
    have := loc_readStringBytes; have := loc_onValueEnd
    unfold strReadLoop; loc
    · exact loc_strConsume _ _ _
    · exact .modify (fun _ => rfl) (fun _ => Nat.le_refl _) fun _ _ _ => rfl
    · exact loc_strReadLoop _ _ _

theorem loc_strDrain {len : Nat} {sr : StrReader} : Loc (strDrain len sr : R AbsSrc _) (strDrain len sr) := by
  unfold strDrain; loc

theorem loc_strReadsOk : ∀ lens sr, Loc (strReadsOk lens sr : R AbsSrc _) (strReadsOk lens sr)
  | [], _ => .pure _
  | len :: lens, sr => by
    have h : Loc (strReadImpl len sr : R AbsSrc _) (strReadImpl len sr) := by
      have := @loc_strDrain len sr
      unfold strReadImpl; loc; exact loc_strReadLoop _ _ _
    unfold strReadsOk; loc; exact loc_strReadsOk _ _

theorem Loc.unitOut {m m' : R AbsSrc Unit} (h : Loc m m') : Loc (unitOut m) (unitOut m') := .bind h fun _ => .pure _
theorem Loc.textOut {m m' : R AbsSrc Text} (h : Loc m m') : Loc (textOut m) (textOut m') := .bind h fun _ => .pure _
theorem Loc.boolOut {m m' : R AbsSrc Bool} (h : Loc m m') : Loc (boolOut m) (boolOut m') := .bind h fun _ => .pure _

theorem loc_runOp : ∀ op, Loc (runOp op : R AbsSrc _) (runOp op)
  | .peek => .bind loc_peek fun _ => .pure _
  | .beginArray => .unitOut loc_beginArray
  | .endArray => .unitOut loc_endArray
  | .beginObject => .unitOut loc_beginObject
  | .endObject => .unitOut loc_endObject
  | .nextName => .textOut loc_nextName
  | .nextNameOwned => .textOut loc_nextNameOwned
  | .nextString => .textOut loc_nextString
  | .nextStr => .textOut loc_nextStr
  | .stringReader lens => by
    unfold runOp nextStringReader
    refine .bind (.bind (loc_start nofun) fun _ => .bind ?_ fun _ => .pure _) fun _ => .bind (loc_strReadsOk _ _) fun _ => .pure _
    exact .modify (fun _ => rfl) (fun _ => Nat.le_refl _) fun _ _ _ => rfl
  | .nextNumberAsStr => .textOut loc_nextNumberAsStr
  | .nextNumberAsString => .textOut loc_nextNumberAsString
  | .nextBool => .boolOut loc_nextBool
  | .nextNull => .unitOut loc_nextNull
  | .hasNext => .boolOut loc_hasNext
  | .skipName => .unitOut loc_skipName
  | .skipValue => .unitOut loc_skipValue
  | .skipToTopLevel => .unitOut loc_skipToTopLevel
  | .seekTo path => .unitOut loc_seekTo
  | .seekBack path => .unitOut loc_seekBack
  | .currentPosition i => fun s => ⟨0, .zero rfl rfl, Nat.le_refl _, fun _ _ _ => .inl rfl⟩
  | .consumeTrailingWhitespace => .unitOut loc_trailing

end Verif.Abs
