import Verif.Spec.NoPath
import Verif.Model.Run
/-!
# Readers with and without path tracking

`Er P Q m m'`: `m` for the reader which tracks the path and `m'` for the one which does not, give the same result up to the JSON path, unless `m` fails with an
internal panic (which is excluded by C02).
-/

namespace Verif.NoPath
open Reader

abbrev St := RState AbsSrc

/-- the state of the reader without path tracking; the bytes of the last value may differ -/
def E (acc : Bytes) (s : St) : St :=
  { s with src := { s.src with acc }, path := none, settings := { s.settings with trackPath := false } }

/-- related states; `p`: the bytes of the current value are the same -/
def Rl (p : Bool) (s s' : St) : Prop := ∃ acc, (p = true → acc = s.src.acc) ∧ s' = E acc s

theorem Rl.weaken {p : Bool} {s s' : St} : Rl p s s' → Rl false s s' := fun ⟨acc, _, h⟩ => ⟨acc, nofun, h⟩

def Internal (e : RErr) : Prop := ∃ i, e = .panic (.internal i)

section
variable {S α β : Type} (Z : S → S → Prop)

/-- related results -/
def RE (Q : S → S → Prop) : Res RErr S α → Res RErr S α → Prop
  | .ok a t, .ok b t' => a = b ∧ Q t t'
  | .ok _ _, .err _ _ => False
  | .err e t, r => Internal e ∨ ∃ t', r = .err e.noPath t' ∧ (e.fatal = false → Z t t')

/-- related methods -/
def ErG (P Q : S → S → Prop) (m m' : M RErr S α) : Prop := ∀ s s', P s s' → RE Z Q (m.run s) (m'.run s')

variable {Z} {P Q Q' T : S → S → Prop} {m m' : M RErr S α} {f f' : α → M RErr S β}

theorem ErG.bind (h : ErG Z P Q m m') (hf : ∀ a, ErG Z Q T (f a) (f' a)) : ErG Z P T (m >>= f) (m' >>= f') := by
  intro s s' hp
  have h1 := h s s' hp
  rw [M.run_bind, M.run_bind]
  cases hm : m.run s with
  | ok a t =>
    rw [hm] at h1
    cases hm' : m'.run s' with
    | ok b t' =>
      rw [hm'] at h1
      obtain ⟨rfl, hq⟩ := h1
      exact hf _ _ _ hq
    | err e t' => rw [hm'] at h1; exact h1.elim
  | err e t =>
    rw [hm] at h1
    rcases h1 with h1 | ⟨t', h1, h2⟩
    · exact .inl h1
    · exact .inr ⟨t', by rw [h1], h2⟩

theorem ErG.pure (a : α) (h : ∀ s s', P s s' → Q s s') : ErG Z P Q (pure a) (pure a) := fun _ _ hp => ⟨rfl, h _ _ hp⟩

theorem ErG.oof : ErG Z P Q (M.fail .outOfFuel : M RErr S α) (M.fail .outOfFuel) := fun _ _ _ => .inr ⟨_, rfl, nofun⟩

theorem ErG.ite {c : Prop} [Decidable c] {a b a' b' : M RErr S α} (h1 : ErG Z P Q a a') (h2 : ErG Z P Q b b') :
    ErG Z P Q (if c then a else b) (if c then a' else b') := by
  split
  · exact h1
  · exact h2

theorem ErG.post (h : ErG Z P Q m m') (hq : ∀ s s', Q s s' → Q' s s') : ErG Z P Q' m m' := by
  intro s s' hp
  have h1 := h s s' hp
  cases hm : m.run s with
  | ok a t =>
    rw [hm] at h1
    cases hm' : m'.run s' with
    | ok b t' => rw [hm'] at h1; exact ⟨h1.1, hq _ _ h1.2⟩
    | err e t' => rw [hm'] at h1; exact h1.elim
  | err e t => rw [hm] at h1; exact h1

theorem ErG.pre (h : ErG Z P Q m m') {P' : S → S → Prop} (hp : ∀ s s', P' s s' → P s s') : ErG Z P' Q m m' := fun _ _ h' => h _ _ (hp _ _ h')

/-- an additional step of the first reader -/
theorem ErG.left {γ : Type} {g : R AbsSrc γ} {m' : R AbsSrc β} {f : γ → R AbsSrc β} {P Q T : St → St → Prop} {Z : St → St → Prop}
    (hg : ∀ s s', P s s' → match g.run s with
      | .ok _ t => Q t s'
      | .err e _ => Internal e) (hf : ∀ a, ErG Z Q T (f a) m') : ErG Z P T (g >>= f) m' := by
  intro s s' hp
  have h1 := hg s s' hp
  rw [M.run_bind]
  cases hm : g.run s with
  | ok a t => rw [hm] at h1; exact hf _ _ _ h1
  | err e t => rw [hm] at h1; exact .inl h1

end

abbrev Er {α : Type} (p q : Bool) (m m' : R AbsSrc α) : Prop := ErG (Rl false) (Rl p) (Rl q) m m'

namespace Er
variable {α β : Type} {p q : Bool}

theorem bind {r : Bool} {m m' : R AbsSrc α} {f f' : α → R AbsSrc β} (h : Er p q m m') (hf : ∀ a, Er q r (f a) (f' a)) : Er p r (m >>= f) (m' >>= f') := ErG.bind h hf

theorem bindS {m m' : R AbsSrc α} {f f' : α → R AbsSrc β} (h : Er p p m m') (hf : ∀ a, Er p q (f a) (f' a)) : Er p q (m >>= f) (m' >>= f') := ErG.bind h hf

theorem pure (a : α) : Er p p (pure a : R AbsSrc α) (pure a) := ErG.pure a fun _ _ h => h

theorem fuel : Er p q (M.fail .outOfFuel : R AbsSrc α) (M.fail .outOfFuel) := ErG.oof

theorem ite {c : Prop} [Decidable c] {a b a' b' : R AbsSrc α} (h1 : Er p q a a') (h2 : Er p q b b') : Er p q (if c then a else b) (if c then a' else b') := ErG.ite h1 h2

theorem get {f f' : St → R AbsSrc α} (hf : ∀ s acc, f' (E acc s) = f s) (h : ∀ s, Er p q (f s) (f s)) : Er p q (M.get >>= f) (M.get >>= f') := by
  rintro s _ ⟨acc, ha, rfl⟩
  show RE (Rl false) (Rl q) ((f s).run s) ((f' (E acc s)).run (E acc s))
  rw [hf]
  exact h s _ _ ⟨acc, ha, rfl⟩

theorem modify {f : St → St} (h : ∀ s acc, f (E acc s) = E acc (f s) ∧ (f s).src = s.src) : Er p p (M.modify f) (M.modify f) := by
  rintro s _ ⟨acc, ha, rfl⟩
  refine ⟨rfl, acc, fun hp => ?_, (h s acc).1⟩
  rw [(h s acc).2]
  exact ha hp

theorem adv {a b : Nat} : Er p p (advance a b) (advance a b) := modify fun _ _ => ⟨rfl, rfl⟩

theorem loc {acc : Bytes} {s : St} : loc (E acc s) = (loc s).noPath := rfl

theorem syn {k : SyntaxKind} : Er p q (syntaxErr k : R AbsSrc α) (syntaxErr k) := by
  rintro s _ ⟨acc, ha, rfl⟩
  exact .inr ⟨_, rfl, nofun⟩

theorem io {e : IoErr} : Er p q (ioErr e : R AbsSrc α) (ioErr e) := by
  rintro s _ ⟨acc, ha, rfl⟩
  exact .inr ⟨_, rfl, nofun⟩

theorem struct {k : StructureKind} : Er p q (structureErr k : R AbsSrc α) (structureErr k) := by
  rintro s _ ⟨acc, ha, rfl⟩
  exact .inr ⟨_, rfl, fun _ => ⟨acc, nofun, rfl⟩⟩

theorem usage {u : UsagePanic} : Er p q (usagePanic u : R AbsSrc α) (usagePanic u) := fun _ _ _ => .inr ⟨_, rfl, nofun⟩

theorem internal {i : InternalPanic} {m' : R AbsSrc α} : Er p q (internalPanic i) m' := fun _ _ _ => .inl ⟨i, rfl⟩

theorem unwrap {o : Option α} : Er p p (Reader.unwrap o) (Reader.unwrap o) := by
  cases o
  · exact internal
  · exact pure _

theorem toFalse {m m' : R AbsSrc α} (h : Er p q m m') : Er p false m m' := ErG.post h fun _ _ => Rl.weaken

theorem ofFalse {m m' : R AbsSrc α} (h : Er false q m m') : Er p q m m' := ErG.pre h fun _ _ => Rl.weaken

end Er

/-- related byte access operations -/
def Op {α : Type} (p q : Bool) (m m' : M SrcErr AbsSrc α) : Prop := ∀ c acc, (p = true → acc = c.acc) →
  match m.run c with
  | .ok a t => ∃ acc', (q = true → acc' = t.acc) ∧ m'.run { c with acc } = .ok a { t with acc := acc' }
  | .err e _ => (∃ i, e = .panic (.internal i)) ∨ ∃ k t', e = .io k ∧ m'.run { c with acc } = .err e t'

theorem Er.lift {α : Type} {p q : Bool} {m m' : M SrcErr AbsSrc α} (h : Op p q m m') : Er p q (liftS m) (liftS m') := by
  rintro s _ ⟨acc, ha, rfl⟩
  have h1 := h s.src acc ha
  unfold liftS
  dsimp only
  have he : (E acc s).src = { s.src with acc } := rfl
  rw [he]
  cases hm : m.run s.src with
  | ok a t =>
    rw [hm] at h1
    obtain ⟨acc', hq, h1⟩ := h1
    rw [h1]
    exact ⟨rfl, acc', hq, rfl⟩
  | err e t =>
    rw [hm] at h1
    rcases h1 with ⟨i, rfl⟩ | ⟨k, t', rfl, h1⟩
    · exact .inl ⟨i, rfl⟩
    · rw [h1]
      exact .inr ⟨_, rfl, nofun⟩

section
variable {p : Bool}

theorem op_peek : Op p p AbsSrc.peekByte AbsSrc.peekByte := by
  rintro ⟨r, t, a⟩ acc ha
  cases r with
  | cons b r => exact ⟨acc, ha, rfl⟩
  | nil =>
    cases t with
    | none => exact ⟨acc, ha, rfl⟩
    | some k => exact .inr ⟨k, _, rfl, rfl⟩

theorem op_skip : Op p p AbsSrc.skipPeekedByte AbsSrc.skipPeekedByte := by
  rintro ⟨r, t, a⟩ acc ha
  cases r with
  | cons b r => exact ⟨acc, ha, rfl⟩
  | nil => exact .inl ⟨_, rfl⟩

theorem op_consume : Op p p AbsSrc.vConsume AbsSrc.vConsume := by
  rintro ⟨r, t, a⟩ acc ha
  cases r with
  | cons b r => exact ⟨acc ++ [b], fun hp => by rw [ha hp], rfl⟩
  | nil => exact .inl ⟨_, rfl⟩

theorem op_consume_skip : Op p false AbsSrc.vConsume AbsSrc.skipPeekedByte := by
  rintro ⟨r, t, a⟩ acc ha
  cases r with
  | cons b r => exact ⟨acc, nofun, rfl⟩
  | nil => exact .inl ⟨_, rfl⟩

theorem op_new : Op p true AbsSrc.vNew AbsSrc.vNew := fun _ _ _ => ⟨[], fun _ => rfl, rfl⟩
theorem op_drop : Op p p AbsSrc.vDropLast AbsSrc.vDropLast := fun _ acc h => ⟨acc.dropLast, fun hp => by rw [h hp], rfl⟩
theorem op_push {bs : Bytes} : Op p p (AbsSrc.vPush bs) (AbsSrc.vPush bs) := fun _ acc h => ⟨acc ++ bs, fun hp => by rw [h hp], rfl⟩
theorem op_get : Op p p AbsSrc.vGet AbsSrc.vGet := fun _ acc h => ⟨acc, h, rfl⟩

theorem op_getStr : Op true p AbsSrc.getStr AbsSrc.getStr := by
  rintro ⟨r, t, a⟩ acc ha
  obtain rfl := ha rfl
  unfold AbsSrc.getStr
  dsimp only
  cases Utf8.toStrUnchecked acc with
  | some x => exact ⟨[], fun _ => rfl, rfl⟩
  | none => exact .inl ⟨_, rfl⟩

end

end Verif.NoPath
