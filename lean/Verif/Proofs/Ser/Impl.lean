import Verif.Spec.SerImpl
import Verif.Proofs.Ser.Exec
/-!
# Implementations of `Serialize` which stop after an error

They behave like a value of the Serde data model.
-/

namespace Verif.Ser
open Writer SerSpec

/-! ## Equality except for the errors -/

/-- Equal trees, except for the errors which are returned -/
inductive Tree.Alike : Tree (Except SerErr Unit × Core) → Tree (Except SerErr Unit × Core) → Prop
  | ok {c : Core} : Tree.Alike (.ret (.ok (), c)) (.ret (.ok (), c))
  | error {e e' : SerErr} {c : Core} : Tree.Alike (.ret (.error e, c)) (.ret (.error e', c))
  | panic {p : WPanic} : Tree.Alike (.panic p) (.panic p)
  | emit {bs : Bytes} {k k' : Except WErr Unit → Tree (Except SerErr Unit × Core)} : (∀ r, Tree.Alike (k r) (k' r)) → Tree.Alike (.emit bs k) (.emit bs k')
  | flush {k k' : Except WErr Unit → Tree (Except SerErr Unit × Core)} : (∀ r, Tree.Alike (k r) (k' r)) → Tree.Alike (.flush k) (.flush k')

theorem Tree.Alike.refl (t : Tree (Except SerErr Unit × Core)) : Tree.Alike t t := by
  induction t with
  | ret b =>
    obtain ⟨_ | ⟨⟨⟩⟩, c⟩ := b
    · exact .error
    · exact .ok
  | panic => exact .panic
  | emit bs k ih => exact .emit ih
  | flush k ih => exact .flush ih

def Alike (m m' : S Unit) : Prop := ∀ c, Tree.Alike (m.run c) (m'.run c)

theorem Alike.refl (m : S Unit) : Alike m m := fun _ => .refl _

/-- after an error there are no further calls -/
theorem Alike.attempt {m m' : S Unit} {K : Except SerErr Unit → S Unit} {n : Unit → S Unit} (h : Alike m m') (he : ∀ e, ∃ e', K (.error e) = T.fail e') (hk : Alike (K (.ok ())) (n ())) :
    Alike (T.attempt m >>= K) (m' >>= n) := by
  intro c
  rw [T.run_bind, T.run_bind]
  have h := h c
  unfold T.attempt
  dsimp only
  generalize m.run c = t at h ⊢
  generalize m'.run c = t' at h ⊢
  induction h with
  | ok => exact hk _
  | @error e e' c' =>
    obtain ⟨e1, h1⟩ := he e
    show Tree.Alike ((K (.error e)).run c') _
    rw [h1]
    exact .error
  | panic => exact .panic
  | emit _ ih => exact .emit ih
  | flush _ ih => exact .flush ih

theorem Alike.bind {m m' : S Unit} {f g : Unit → S Unit} (h : Alike m m') (hk : Alike (f ()) (g ())) : Alike (m >>= f) (m' >>= g) := by
  intro c
  rw [T.run_bind, T.run_bind]
  have h := h c
  generalize m.run c = t at h ⊢
  generalize m'.run c = t' at h ⊢
  induction h with
  | ok => exact hk _
  | error => exact .error
  | panic => exact .panic
  | emit _ ih => exact .emit ih
  | flush _ ih => exact .flush ih

theorem bind_pure_s (m : S Unit) : (m >>= fun _ => pure ()) = m := by
  obtain ⟨f⟩ := m
  refine congrArg T.mk (funext fun c => ?_)
  show (f c).bind _ = f c
  generalize f c = t
  induction t with
  | ret b => obtain ⟨_ | ⟨⟨⟩⟩, c⟩ := b <;> rfl
  | panic => rfl
  | emit bs k ih => exact congrArg _ (funext ih)
  | flush k ih => exact congrArg _ (funext ih)

theorem bind_assoc_s (m : S Unit) (f g : Unit → S Unit) : ((m >>= f) >>= g) = (m >>= fun a => f a >>= g) := by
  obtain ⟨m⟩ := m
  refine congrArg T.mk (funext fun c => ?_)
  show ((m c).bind _).bind _ = (m c).bind _
  generalize m c = t
  induction t with
  | ret b => obtain ⟨_ | ⟨⟨⟩⟩, c⟩ := b <;> rfl
  | panic => rfl
  | emit bs k ih => exact congrArg _ (funext ih)
  | flush k ih => exact congrArg _ (funext ih)

theorem Alike.after {r : Ret} {m m' : S Unit} (hr : r.ok = none) (h : Alike m m') : Alike (r.after m) m' := by
  rw [← bind_pure_s m']
  unfold Ret.after
  refine h.attempt (fun e => ⟨_, rfl⟩) ?_
  dsimp only
  rw [hr]
  exact .refl _

theorem Alike.compound {m m' : S Unit} {err : SerErr → SerErr} {k : S Unit} {n : Unit → S Unit} (h : Alike m m') (hk : Alike k (n ())) : Alike (compound m err k) (m' >>= n) :=
  h.attempt (fun _ => ⟨_, rfl⟩) hk

theorem keep_some {α : Type} {r : Ret} {o : Option α} {a : α} (h : keep r o = some a) : r.ok = none ∧ o = some a := by
  unfold keep at h
  split at h
  · exact ⟨‹_›, h⟩
  · cases h

theorem alike_scalar (s : Scalar) : serializeScalar s = serialize (scalarVal s) := by
  cases s <;> rw [serializeScalar, scalarVal, serialize]

theorem alike_scalarKey (s : Scalar) : serializeScalarKey s = serializeKey (scalarVal s) := by
  cases s <;> rw [serializeScalarKey, scalarVal, serializeKey]

theorem map_some {α β : Type} {f : α → β} {o : Option α} {b : β} (h : o.map f = some b) : ∃ a, o = some a ∧ b = f a := by
  cases o with
  | none => cases h
  | some a => exact ⟨a, rfl, (Option.some.inj h).symm⟩

theorem alike_errKey {err : SerErr → SerErr} {k : S Unit} : Alike (compound errKeyNotString err k) errKeyNotString := fun _ => .error

theorem alike_key : (i : Impl) → Stops i → ∀ {v : SVal}, val i = some v → Alike (serializeKeyI i) (serializeKey v)
  | .fail _, _, _, h => by rw [val] at h; cases h
  | .scalar s r, _, _, h => by
    rw [val] at h
    obtain ⟨h1, h2⟩ := keep_some h
    cases h2
    rw [serializeKeyI]
    exact .after h1 (alike_scalarKey s ▸ .refl _)
  | .some i r, hs, _, h => by
    rw [val] at h
    obtain ⟨h1, h2⟩ := keep_some h
    obtain ⟨v, h3, rfl⟩ := map_some h2
    rw [serializeKeyI, serializeKey]
    exact .after h1 (alike_key i (by rw [Stops] at hs; exact hs) h3)
  | .newtypeStruct i r, hs, _, h => by
    rw [val] at h
    obtain ⟨h1, h2⟩ := keep_some h
    obtain ⟨v, h3, rfl⟩ := map_some h2
    rw [serializeKeyI, serializeKey]
    exact .after h1 (alike_key i (by rw [Stops] at hs; exact hs) h3)
  | .newtypeVariant n i r, hs, _, h => by
    rw [val] at h
    obtain ⟨h1, h2⟩ := keep_some h
    obtain ⟨v, h3, rfl⟩ := map_some h2
    rw [serializeKeyI, serializeKey]
    exact .after h1 (.refl _)
  | .seq _ _ _, _, _, h => by rw [val] at h; obtain ⟨v, h3, rfl⟩ := map_some h; rw [serializeKeyI, serializeKey]; exact alike_errKey
  | .tuple _ _ _, _, _, h => by rw [val] at h; obtain ⟨v, h3, rfl⟩ := map_some h; rw [serializeKeyI, serializeKey]; exact alike_errKey
  | .tupleStruct _ _ _, _, _, h => by rw [val] at h; obtain ⟨v, h3, rfl⟩ := map_some h; rw [serializeKeyI, serializeKey]; exact alike_errKey
  | .tupleVariant _ _ _ _, _, _, h => by rw [val] at h; obtain ⟨v, h3, rfl⟩ := map_some h; rw [serializeKeyI, serializeKey]; exact alike_errKey
  | .map _ _ _, _, _, h => by rw [val] at h; obtain ⟨v, h3, rfl⟩ := map_some h; rw [serializeKeyI, serializeKey]; exact alike_errKey
  | .struct _ _ _, _, _, h => by rw [val] at h; obtain ⟨v, h3, rfl⟩ := map_some h; rw [serializeKeyI, serializeKey]; exact alike_errKey
  | .structVariant _ _ _ _, _, _, h => by rw [val] at h; obtain ⟨v, h3, rfl⟩ := map_some h; rw [serializeKeyI, serializeKey]; exact alike_errKey

theorem alike_fail {e e' : SerErr} : Alike (T.fail e) (T.fail e') := fun _ => .error

theorem prepend_some {α : Type} {o : Option α} {o' : Option (List α)} {xs : List α} (h : prepend o o' = some xs) : ∃ x ys, o = some x ∧ o' = some ys ∧ xs = x :: ys := by
  cases o with
  | none => cases h
  | some x =>
    cases o' with
    | none => cases h
    | some ys => exact ⟨x, ys, rfl, rfl, (Option.some.inj h).symm⟩

theorem seqI_drop {o : Option Nat} {n : Nat} {k : Except SerErr Unit → SeqImpl} (h : ∀ e, ∃ e', k (.error e) = .drop e') (e : SerErr) : ∃ e', seqI o n (k (.error e)) = T.fail e' := by
  obtain ⟨e', h⟩ := h e
  exact ⟨e', by rw [h, seqI]⟩

theorem tupleI_drop {m : S Unit} {o : Nat} {n : Nat} {k : Except SerErr Unit → SeqImpl} (h : ∀ e, ∃ e', k (.error e) = .drop e') (e : SerErr) : ∃ e', tupleI m o n (k (.error e)) = T.fail e' := by
  obtain ⟨e', h⟩ := h e
  exact ⟨e', by rw [h, tupleI]⟩

theorem mapI_drop {o : Option Nat} {n : Nat} {b : Bool} {k : Except SerErr Unit → MapImpl} (h : ∀ e, ∃ e', k (.error e) = .drop e') (e : SerErr) : ∃ e', mapI o n b (k (.error e)) = T.fail e' := by
  obtain ⟨e', h⟩ := h e
  exact ⟨e', by rw [h, mapI]⟩

theorem structI_drop {m : S Unit} {o : Nat} {n : Nat} {k : Except SerErr Unit → StructImpl} (h : ∀ e, ∃ e', k (.error e) = .drop e') (e : SerErr) : ∃ e', structI m o n (k (.error e)) = T.fail e' := by
  obtain ⟨e', h⟩ := h e
  exact ⟨e', by rw [h, structI]⟩

mutual
/-- The implementation behaves like the value which it describes -/
theorem alike_impl : (i : Impl) → Stops i → ∀ {v : SVal}, val i = some v → Alike (serializeI i) (serialize v)
  | .fail _, _, _, h => by rw [val] at h; cases h
  | .scalar s r, _, _, h => by
    rw [val] at h
    obtain ⟨h1, h2⟩ := keep_some h
    cases h2
    rw [serializeI]
    exact .after h1 (alike_scalar s ▸ .refl _)
  | .some i r, hs, _, h => by
    rw [val] at h
    obtain ⟨h1, h2⟩ := keep_some h
    obtain ⟨v, h3, rfl⟩ := map_some h2
    rw [serializeI, serialize]
    exact .after h1 (alike_impl i (by rw [Stops] at hs; exact hs) h3)
  | .newtypeStruct i r, hs, _, h => by
    rw [val] at h
    obtain ⟨h1, h2⟩ := keep_some h
    obtain ⟨v, h3, rfl⟩ := map_some h2
    rw [serializeI, serialize]
    exact .after h1 (alike_impl i (by rw [Stops] at hs; exact hs) h3)
  | .newtypeVariant n i r, hs, _, h => by
    rw [val] at h
    obtain ⟨h1, h2⟩ := keep_some h
    obtain ⟨v, h3, rfl⟩ := map_some h2
    rw [serializeI, serialize]
    exact .after h1 ((Alike.refl _).bind ((Alike.refl _).bind ((alike_impl i (by rw [Stops] at hs; exact hs) h3).bind (.refl _))))
  | .seq len err body, hs, _, h => by
    rw [val] at h
    obtain ⟨vs, h3, rfl⟩ := map_some h
    rw [serializeI, serialize]
    exact (Alike.refl _).compound (alike_seq len 0 body (by rw [Stops] at hs; exact hs) h3)
  | .tuple len err body, hs, _, h => by
    rw [val] at h
    obtain ⟨vs, h3, rfl⟩ := map_some h
    rw [serializeI, serialize]
    exact (Alike.refl _).compound (alike_tuple _ len 0 body (by rw [Stops] at hs; exact hs) h3)
  | .tupleStruct len err body, hs, _, h => by
    rw [val] at h
    obtain ⟨vs, h3, rfl⟩ := map_some h
    rw [serializeI, serialize]
    exact (Alike.refl _).compound (alike_tuple _ len 0 body (by rw [Stops] at hs; exact hs) h3)
  | .tupleVariant n len err body, hs, _, h => by
    rw [val] at h
    obtain ⟨vs, h3, rfl⟩ := map_some h
    rw [serializeI, serialize]
    have h := (Alike.refl (do onWriter beginObject; onWriter (Writer.name n); onWriter beginArray)).compound (err := err) (n := fun _ => _)
      (alike_tuple (do onWriter endArray; onWriter endObject) len 0 body (by rw [Stops] at hs; exact hs) h3)
    rw [bind_assoc_s, bind_assoc_s] at h
    exact h
  | .map len err body, hs, _, h => by
    rw [val] at h
    obtain ⟨vs, h3, rfl⟩ := map_some h
    rw [serializeI, serialize]
    exact (Alike.refl _).compound (alike_map len 0 false body (by rw [Stops] at hs; exact hs) h3)
  | .struct len err body, hs, _, h => by
    rw [val] at h
    obtain ⟨vs, h3, rfl⟩ := map_some h
    rw [serializeI, serialize]
    exact (Alike.refl _).compound (alike_struct _ len 0 body (by rw [Stops] at hs; exact hs) h3)
  | .structVariant n len err body, hs, _, h => by
    rw [val] at h
    obtain ⟨vs, h3, rfl⟩ := map_some h
    rw [serializeI, serialize]
    have h := (Alike.refl (do onWriter beginObject; onWriter (Writer.name n); onWriter beginObject)).compound (err := err) (n := fun _ => _)
      (alike_struct (do onWriter endObject; onWriter endObject) len 0 body (by rw [Stops] at hs; exact hs) h3)
    rw [bind_assoc_s, bind_assoc_s] at h
    exact h
theorem alike_seq (o : Option Nat) (len : Nat) : (b : SeqImpl) → StopsSeq b → ∀ {vs : List SVal}, elements b = some vs → Alike (seqI o len b) (serializeSeq o len vs)
  | .elem i k, hs, _, h => by
    rw [elements] at h
    obtain ⟨v, vs, h1, h2, rfl⟩ := prepend_some h
    rw [StopsSeq] at hs
    have hv := alike_impl i hs.1 h1
    cases o with
    | none => rw [seqI, serializeSeq]; exact hv.attempt (seqI_drop hs.2.1) (alike_seq none len _ hs.2.2 h2)
    | some n =>
      rw [seqI, serializeSeq]
      split
      · obtain ⟨e', he⟩ := seqI_drop (o := some n) (n := len) hs.2.1 (.incorrectElementsCount n (len + 1))
        rw [he]
        exact alike_fail
      · exact hv.attempt (seqI_drop hs.2.1) (alike_seq (some n) (len + 1) _ hs.2.2 h2)
  | .fin r, _, _, h => by
    rw [elements] at h
    obtain ⟨h1, h2⟩ := keep_some h
    cases h2
    cases o with
    | none => rw [seqI, serializeSeq]; exact .after h1 (.refl _)
    | some n => rw [seqI, serializeSeq]; exact .after h1 (.refl _)
  | .drop _, _, _, h => by rw [elements] at h; cases h
theorem alike_tuple (m : S Unit) (n len : Nat) : (b : SeqImpl) → StopsSeq b → ∀ {vs : List SVal}, elements b = some vs → Alike (tupleI m n len b) (serializeElements n len vs >>= fun _ => m)
  | .elem i k, hs, _, h => by
    rw [elements] at h
    obtain ⟨v, vs, h1, h2, rfl⟩ := prepend_some h
    rw [StopsSeq] at hs
    have hv := alike_impl i hs.1 h1
    rw [tupleI, serializeElements]
    split
    · obtain ⟨e', he⟩ := tupleI_drop (m := m) (o := n) (n := len) hs.2.1 (.incorrectElementsCount n (len + 1))
      rw [he]
      exact alike_fail
    · rw [bind_assoc_s]
      exact hv.attempt (tupleI_drop hs.2.1) (alike_tuple m n (len + 1) _ hs.2.2 h2)
  | .fin r, _, _, h => by
    rw [elements] at h
    obtain ⟨h1, h2⟩ := keep_some h
    cases h2
    rw [tupleI, serializeElements]
    exact .after h1 (.refl _)
  | .drop _, _, _, h => by rw [elements] at h; cases h
theorem alike_map (o : Option Nat) (len : Nat) (x : Bool) : (b : MapImpl) → StopsMap b → ∀ {vs : List MapOp}, mapOps b = some vs → Alike (mapI o len x b) (serializeMap o len x vs)
  | .key i k, hs, _, h => by
    rw [mapOps] at h
    obtain ⟨_, vs, h0, h2, rfl⟩ := prepend_some h
    obtain ⟨v, h1, rfl⟩ := map_some h0
    rw [StopsMap] at hs
    have hv := alike_key i hs.1 h1
    cases o with
    | none =>
      rw [mapI, serializeMap]
      split
      · exact .refl _
      · exact hv.attempt (mapI_drop hs.2.1) (alike_map none len true _ hs.2.2 h2)
    | some n =>
      rw [mapI, serializeMap]
      split
      · exact .refl _
      · split
        · obtain ⟨e', he⟩ := mapI_drop (o := some n) (n := len) (b := false) hs.2.1 (.incorrectElementsCount n (len + 1))
          rw [he]
          exact alike_fail
        · exact hv.attempt (mapI_drop hs.2.1) (alike_map (some n) (len + 1) true _ hs.2.2 h2)
  | .value i k, hs, _, h => by
    rw [mapOps] at h
    obtain ⟨_, vs, h0, h2, rfl⟩ := prepend_some h
    obtain ⟨v, h1, rfl⟩ := map_some h0
    rw [StopsMap] at hs
    have hv := alike_impl i hs.1 h1
    rw [mapI, serializeMap]
    split
    · exact .refl _
    · exact hv.attempt (mapI_drop hs.2.1) (alike_map o len false _ hs.2.2 h2)
  | .fin r, _, _, h => by
    rw [mapOps] at h
    obtain ⟨h1, h2⟩ := keep_some h
    cases h2
    rw [mapI, serializeMap]
    split
    · exact .refl _
    · cases o with
      | none => exact .after h1 (.refl _)
      | some n => exact .after h1 (.refl _)
  | .drop _, _, _, h => by rw [mapOps] at h; cases h
theorem alike_struct (m : S Unit) (n len : Nat) : (b : StructImpl) → StopsStruct b → ∀ {vs : List (Text × SVal)}, members b = some vs →
    Alike (structI m n len b) (serializeFields n len vs >>= fun _ => m)
  | .field name i k, hs, _, h => by
    rw [members] at h
    obtain ⟨_, vs, h0, h2, rfl⟩ := prepend_some h
    obtain ⟨v, h1, rfl⟩ := map_some h0
    rw [StopsStruct] at hs
    have hv := alike_impl i hs.1 h1
    rw [structI, serializeFields]
    split
    · obtain ⟨e', he⟩ := structI_drop (m := m) (o := n) (n := len) hs.2.1 (.incorrectElementsCount n (len + 1))
      rw [he]
      exact alike_fail
    · rw [← bind_assoc_s (onWriter _), bind_assoc_s]
      exact ((Alike.refl _).bind hv).attempt (structI_drop hs.2.1) (alike_struct m n (len + 1) _ hs.2.2 h2)
  | .fin r, _, _, h => by
    rw [members] at h
    obtain ⟨h1, h2⟩ := keep_some h
    cases h2
    rw [structI, serializeFields]
    exact .after h1 (.refl _)
  | .drop _, _, _, h => by rw [members] at h; cases h
end

/-! ## Implementations which do not describe a value fail -/

/-- No result is a success -/
def NoOk : Tree (Except SerErr Unit × Core) → Prop
  | .ret (.ok _, _) => False
  | .ret (.error _, _) => True
  | .panic _ => True
  | .emit _ k => ∀ r, NoOk (k r)
  | .flush k => ∀ r, NoOk (k r)

def Never (m : S Unit) : Prop := ∀ c, NoOk (m.run c)

theorem never_fail {e : SerErr} : Never (T.fail e) := fun _ => trivial
theorem never_usage {u : WUsage} : Never (T.usage u) := fun _ => trivial

theorem Never.of_attempt {m : S Unit} {K : Except SerErr Unit → S Unit} (he : ∀ e, ∃ e', K (.error e) = T.fail e') (h : Never m ∨ Never (K (.ok ()))) : Never (T.attempt m >>= K) := by
  intro c
  rw [T.run_bind]
  unfold T.attempt
  dsimp only
  have h : NoOk (m.run c) ∨ Never (K (.ok ())) := h.imp_left fun h => h c
  revert h
  generalize m.run c = t
  intro h
  induction t with
  | ret b =>
    obtain ⟨e | ⟨⟨⟩⟩, c⟩ := b
    · obtain ⟨e', he⟩ := he e
      show NoOk ((K (.error e)).run c)
      rw [he]
      trivial
    · rcases h with h | h
      · exact h.elim
      · exact h c
  | panic => trivial
  | emit bs k ih => exact fun r => ih r (h.imp_left fun h => h r)
  | flush k ih => exact fun r => ih r (h.imp_left fun h => h r)

theorem Never.bind {m : S Unit} {f : Unit → S Unit} (h : Never m ∨ Never (f ())) : Never (m >>= f) := by
  intro c
  rw [T.run_bind]
  have h : NoOk (m.run c) ∨ Never (f ()) := h.imp_left fun h => h c
  revert h
  generalize m.run c = t
  intro h
  induction t with
  | ret b =>
    obtain ⟨e | ⟨⟨⟩⟩, c⟩ := b
    · trivial
    · rcases h with h | h
      · exact h.elim
      · exact h c
  | panic => trivial
  | emit bs k ih => exact fun r => ih r (h.imp_left fun h => h r)
  | flush k ih => exact fun r => ih r (h.imp_left fun h => h r)

theorem Never.after {r : Ret} {m : S Unit} (h : Never m ∨ r.ok ≠ none) : Never (r.after m) := by
  unfold Ret.after
  refine Never.of_attempt (fun e => ⟨_, rfl⟩) (h.imp_right fun h => ?_)
  dsimp only
  split
  · exact never_fail
  · contradiction

theorem keep_none {α : Type} {r : Ret} {o : Option α} (h : keep r o = none) : o = none ∨ r.ok ≠ none := by
  unfold keep at h
  split at h
  · exact .inl h
  · right
    rename_i h'
    rw [h']
    nofun

theorem map_none {α β : Type} {f : α → β} {o : Option α} (h : o.map f = none) : o = none := by
  cases o with
  | none => rfl
  | some a => cases h

theorem prepend_none {α : Type} {o : Option α} {o' : Option (List α)} (h : prepend o o' = none) : o = none ∨ o' = none := by
  cases o with
  | none => exact .inl rfl
  | some x =>
    cases o' with
    | none => exact .inr rfl
    | some ys => cases h

theorem Never.compound {m : S Unit} {err : SerErr → SerErr} {k : S Unit} (h : Never m ∨ Never k) : Never (compound m err k) :=
  Never.of_attempt (fun _ => ⟨_, rfl⟩) h

theorem never_key : (i : Impl) → Stops i → val i = none → Never (serializeKeyI i)
  | .fail _, _, _ => never_fail
  | .scalar s r, _, h => by
    rw [val] at h
    rw [serializeKeyI]
    exact .after ((keep_none h).imp_left nofun)
  | .some i r, hs, h => by
    rw [val] at h
    rw [serializeKeyI]
    exact .after ((keep_none h).imp_left fun h => never_key i (by rw [Stops] at hs; exact hs) (map_none h))
  | .newtypeStruct i r, hs, h => by
    rw [val] at h
    rw [serializeKeyI]
    exact .after ((keep_none h).imp_left fun h => never_key i (by rw [Stops] at hs; exact hs) (map_none h))
  | .newtypeVariant n i r, hs, h => by
    rw [serializeKeyI]
    exact .after (.inl never_fail)
  | .seq _ _ _, _, _ => by rw [serializeKeyI]; exact .compound (.inl never_fail)
  | .tuple _ _ _, _, _ => by rw [serializeKeyI]; exact .compound (.inl never_fail)
  | .tupleStruct _ _ _, _, _ => by rw [serializeKeyI]; exact .compound (.inl never_fail)
  | .tupleVariant _ _ _ _, _, _ => by rw [serializeKeyI]; exact .compound (.inl never_fail)
  | .map _ _ _, _, _ => by rw [serializeKeyI]; exact .compound (.inl never_fail)
  | .struct _ _ _, _, _ => by rw [serializeKeyI]; exact .compound (.inl never_fail)
  | .structVariant _ _ _ _, _, _ => by rw [serializeKeyI]; exact .compound (.inl never_fail)

mutual
theorem never_impl : (i : Impl) → Stops i → val i = none → Never (serializeI i)
  | .fail _, _, _ => never_fail
  | .scalar s r, _, h => by
    rw [val] at h
    rw [serializeI]
    exact .after ((keep_none h).imp_left nofun)
  | .some i r, hs, h => by
    rw [val] at h
    rw [serializeI]
    exact .after ((keep_none h).imp_left fun h => never_impl i (by rw [Stops] at hs; exact hs) (map_none h))
  | .newtypeStruct i r, hs, h => by
    rw [val] at h
    rw [serializeI]
    exact .after ((keep_none h).imp_left fun h => never_impl i (by rw [Stops] at hs; exact hs) (map_none h))
  | .newtypeVariant n i r, hs, h => by
    rw [val] at h
    rw [serializeI]
    exact .after ((keep_none h).imp_left fun h => .bind (.inr (.bind (.inr (.bind (.inl (never_impl i (by rw [Stops] at hs; exact hs) (map_none h))))))))
  | .seq len err body, hs, h => by
    rw [val] at h
    rw [serializeI]
    exact .compound (.inr (never_seq len 0 body (by rw [Stops] at hs; exact hs) (map_none h)))
  | .tuple len err body, hs, h => by
    rw [val] at h
    rw [serializeI]
    exact .compound (.inr (never_tuple _ len 0 body (by rw [Stops] at hs; exact hs) (map_none h)))
  | .tupleStruct len err body, hs, h => by
    rw [val] at h
    rw [serializeI]
    exact .compound (.inr (never_tuple _ len 0 body (by rw [Stops] at hs; exact hs) (map_none h)))
  | .tupleVariant n len err body, hs, h => by
    rw [val] at h
    rw [serializeI]
    exact .compound (.inr (never_tuple _ len 0 body (by rw [Stops] at hs; exact hs) (map_none h)))
  | .map len err body, hs, h => by
    rw [val] at h
    rw [serializeI]
    exact .compound (.inr (never_map len 0 false body (by rw [Stops] at hs; exact hs) (map_none h)))
  | .struct len err body, hs, h => by
    rw [val] at h
    rw [serializeI]
    exact .compound (.inr (never_struct _ len 0 body (by rw [Stops] at hs; exact hs) (map_none h)))
  | .structVariant n len err body, hs, h => by
    rw [val] at h
    rw [serializeI]
    exact .compound (.inr (never_struct _ len 0 body (by rw [Stops] at hs; exact hs) (map_none h)))
theorem never_seq (o : Option Nat) (len : Nat) : (b : SeqImpl) → StopsSeq b → elements b = none → Never (seqI o len b)
  | .elem i k, hs, h => by
    rw [elements] at h
    rw [StopsSeq] at hs
    have h' := fun o' n' => (prepend_none h).imp (fun h => never_impl i hs.1 h) fun h => never_seq o' n' _ hs.2.2 h
    cases o with
    | none => rw [seqI]; exact .of_attempt (seqI_drop hs.2.1) (h' _ _)
    | some n =>
      rw [seqI]
      split
      · obtain ⟨e', he⟩ := seqI_drop (o := some n) (n := len) hs.2.1 (.incorrectElementsCount n (len + 1))
        rw [he]
        exact never_fail
      · exact .of_attempt (seqI_drop hs.2.1) (h' _ _)
  | .fin r, _, h => by
    rw [elements] at h
    rw [seqI]
    exact .after ((keep_none h).imp_left nofun)
  | .drop _, _, h => by rw [seqI]; exact never_fail
theorem never_tuple (m : S Unit) (o : Nat) (len : Nat) : (b : SeqImpl) → StopsSeq b → elements b = none → Never (tupleI m o len b)
  | .elem i k, hs, h => by
    rw [elements] at h
    rw [StopsSeq] at hs
    have h' := (prepend_none h).imp (fun h => never_impl i hs.1 h) fun h => never_tuple m o (len + 1) _ hs.2.2 h
    rw [tupleI]
    split
    · obtain ⟨e', he⟩ := tupleI_drop (m := m) (o := o) (n := len) hs.2.1 (.incorrectElementsCount o (len + 1))
      rw [he]
      exact never_fail
    · exact .of_attempt (tupleI_drop hs.2.1) h'
  | .fin r, _, h => by
    rw [elements] at h
    rw [tupleI]
    exact .after ((keep_none h).imp_left nofun)
  | .drop _, _, h => by rw [tupleI]; exact never_fail
theorem never_map (o : Option Nat) (len : Nat) (x : Bool) : (b : MapImpl) → StopsMap b → mapOps b = none → Never (mapI o len x b)
  | .key i k, hs, h => by
    rw [mapOps] at h
    rw [StopsMap] at hs
    have h' := fun o' n' => (prepend_none h).imp (fun h => never_key i hs.1 (map_none h)) fun h => never_map o' n' true _ hs.2.2 h
    cases o with
    | none =>
      rw [mapI]
      split
      · exact never_usage
      · exact .of_attempt (mapI_drop hs.2.1) (h' _ _)
    | some n =>
      rw [mapI]
      split
      · exact never_usage
      · split
        · obtain ⟨e', he⟩ := mapI_drop (o := some n) (n := len) (b := false) hs.2.1 (.incorrectElementsCount n (len + 1))
          rw [he]
          exact never_fail
        · exact .of_attempt (mapI_drop hs.2.1) (h' _ _)
  | .value i k, hs, h => by
    rw [mapOps] at h
    rw [StopsMap] at hs
    have h' := (prepend_none h).imp (fun h => never_impl i hs.1 (map_none h)) fun h => never_map o len false _ hs.2.2 h
    rw [mapI]
    split
    · exact never_usage
    · exact .of_attempt (mapI_drop hs.2.1) h'
  | .fin r, _, h => by
    rw [mapOps] at h
    rw [mapI]
    split
    · exact never_usage
    · exact .after ((keep_none h).imp_left nofun)
  | .drop _, _, h => by rw [mapI]; exact never_fail
theorem never_struct (m : S Unit) (o : Nat) (len : Nat) : (b : StructImpl) → StopsStruct b → members b = none → Never (structI m o len b)
  | .field name i k, hs, h => by
    rw [members] at h
    rw [StopsStruct] at hs
    have h' : Never (do onWriter (Writer.name name); serializeI i) ∨ Never (structI m o (len + 1) (k (.ok ()))) :=
      (prepend_none h).imp (fun h => .bind (.inr (never_impl i hs.1 (map_none h)))) fun h => never_struct m o (len + 1) _ hs.2.2 h
    rw [structI]
    split
    · obtain ⟨e', he⟩ := structI_drop (m := m) (o := o) (n := len) hs.2.1 (.incorrectElementsCount o (len + 1))
      rw [he]
      exact never_fail
    · exact .of_attempt (structI_drop hs.2.1) h'
  | .fin r, _, h => by
    rw [members] at h
    rw [structI]
    exact .after ((keep_none h).imp_left nofun)
  | .drop _, _, h => by rw [structI]; exact never_fail
end

/-! ## Every implementation does the beginning of what a value does -/

mutual
/-- The value whose calls the implementation makes until it returns an own error -/
def shape : Impl → SVal
  | .fail _ => .custom []
  | .scalar s _ => scalarVal s
  | .some v _ => .some (shape v)
  | .newtypeStruct v _ => .newtypeStruct (shape v)
  | .newtypeVariant variant v _ => .newtypeVariant variant (shape v)
  | .seq len _ body => .seq len (shapeSeq body)
  | .tuple len _ body => .tuple len (shapeSeq body)
  | .tupleStruct len _ body => .tupleStruct len (shapeSeq body)
  | .tupleVariant variant len _ body => .tupleVariant variant len (shapeSeq body)
  | .map len _ body => .map len (shapeMap false body)
  | .struct len _ body => .struct len (shapeStruct body)
  | .structVariant variant len _ body => .structVariant variant len (shapeStruct body)
def shapeSeq : SeqImpl → List SVal
  | .elem v k => shape v :: shapeSeq (k (.ok ()))
  | .fin _ => []
  | .drop _ => []
def shapeMap (expectsValue : Bool) : MapImpl → List MapOp
  | .key v k => .key (shape v) :: shapeMap true (k (.ok ()))
  | .value v k => .value (shape v) :: shapeMap false (k (.ok ()))
  | .fin _ => []
  | .drop _ => if expectsValue then [.value .unit] else []
def shapeStruct : StructImpl → List (Text × SVal)
  | .field name v k => (name, shape v) :: shapeStruct (k (.ok ()))
  | .fin _ => []
  | .drop _ => []
end

mutual
theorem shape_ok : (i : Impl) → Orderly i → Ok (shape i)
  | .fail _, _ => by rw [shape]; trivial
  | .scalar s r, h => by rw [Orderly] at h; rw [shape]; exact h
  | .some v r, h => by rw [Orderly] at h; rw [shape, Ok]; exact shape_ok v h
  | .newtypeStruct v r, h => by rw [Orderly] at h; rw [shape, Ok]; exact shape_ok v h
  | .newtypeVariant _ v r, h => by rw [Orderly] at h; rw [shape, Ok]; exact shape_ok v h
  | .seq _ _ b, h => by rw [Orderly] at h; rw [shape, Ok]; exact shapeSeq_ok b h
  | .tuple _ _ b, h => by rw [Orderly] at h; rw [shape, Ok]; exact shapeSeq_ok b h
  | .tupleStruct _ _ b, h => by rw [Orderly] at h; rw [shape, Ok]; exact shapeSeq_ok b h
  | .tupleVariant _ _ _ b, h => by rw [Orderly] at h; rw [shape, Ok]; exact shapeSeq_ok b h
  | .map _ _ b, h => by rw [Orderly] at h; rw [shape, Ok]; exact (shapeMap_ok b).1 h
  | .struct _ _ b, h => by rw [Orderly] at h; rw [shape, Ok]; exact shapeStruct_ok b h
  | .structVariant _ _ _ b, h => by rw [Orderly] at h; rw [shape, Ok]; exact shapeStruct_ok b h
theorem shapeSeq_ok : (b : SeqImpl) → OrderlySeq b → Oks (shapeSeq b)
  | .elem v k, h => by rw [OrderlySeq] at h; rw [shapeSeq, Oks]; exact ⟨shape_ok v h.1, shapeSeq_ok _ h.2⟩
  | .fin _, _ => by rw [shapeSeq]; trivial
  | .drop _, _ => by rw [shapeSeq]; trivial
theorem shapeMap_ok : (b : MapImpl) → (OrderlyMap false b → OkEntries (shapeMap false b)) ∧ (OrderlyMap true b → ∀ x, Ok x → OkEntries (.key x :: shapeMap true b))
  | .key v k => by
    refine ⟨fun h => ?_, fun h => ?_⟩
    · rw [OrderlyMap] at h
      rw [shapeMap]
      exact (shapeMap_ok (k (.ok ()))).2 h.2.2 _ (shape_ok v h.2.1)
    · rw [OrderlyMap] at h; cases h.1
  | .value v k => by
    refine ⟨fun h => ?_, fun h x hx => ?_⟩
    · rw [OrderlyMap] at h; cases h.1
    · rw [OrderlyMap] at h
      rw [shapeMap, OkEntries]
      exact ⟨hx, shape_ok v h.2.1, (shapeMap_ok (k (.ok ()))).1 h.2.2⟩
  | .fin _ => by
    refine ⟨fun h => ?_, fun h => ?_⟩
    · rw [shapeMap]; trivial
    · rw [OrderlyMap] at h; cases h
  | .drop _ => by
    refine ⟨fun h => ?_, fun h x hx => ?_⟩
    · rw [shapeMap]; trivial
    · rw [shapeMap, if_pos rfl, OkEntries]; exact ⟨hx, trivial, trivial⟩
theorem shapeStruct_ok : (b : StructImpl) → OrderlyStruct b → OkFields (shapeStruct b)
  | .field _ v k, h => by rw [OrderlyStruct] at h; rw [shapeStruct, OkFields]; exact ⟨shape_ok v h.1, shapeStruct_ok _ h.2⟩
  | .fin _, _ => by rw [shapeStruct]; trivial
  | .drop _, _ => by rw [shapeStruct]; trivial
end

mutual
theorem val_shape : (i : Impl) → ∀ {v : SVal}, val i = some v → shape i = v
  | .fail _, _, h => by rw [val] at h; cases h
  | .scalar s r, _, h => by rw [val] at h; rw [shape]; exact Option.some.inj (keep_some h).2
  | .some i r, _, h => by rw [val] at h; obtain ⟨v, h1, rfl⟩ := map_some (keep_some h).2; rw [shape, val_shape i h1]
  | .newtypeStruct i r, _, h => by rw [val] at h; obtain ⟨v, h1, rfl⟩ := map_some (keep_some h).2; rw [shape, val_shape i h1]
  | .newtypeVariant _ i r, _, h => by rw [val] at h; obtain ⟨v, h1, rfl⟩ := map_some (keep_some h).2; rw [shape, val_shape i h1]
  | .seq _ _ b, _, h => by rw [val] at h; obtain ⟨v, h1, rfl⟩ := map_some h; rw [shape, val_shapeSeq b h1]
  | .tuple _ _ b, _, h => by rw [val] at h; obtain ⟨v, h1, rfl⟩ := map_some h; rw [shape, val_shapeSeq b h1]
  | .tupleStruct _ _ b, _, h => by rw [val] at h; obtain ⟨v, h1, rfl⟩ := map_some h; rw [shape, val_shapeSeq b h1]
  | .tupleVariant _ _ _ b, _, h => by rw [val] at h; obtain ⟨v, h1, rfl⟩ := map_some h; rw [shape, val_shapeSeq b h1]
  | .map _ _ b, _, h => by rw [val] at h; obtain ⟨v, h1, rfl⟩ := map_some h; rw [shape, val_shapeMap b h1]
  | .struct _ _ b, _, h => by rw [val] at h; obtain ⟨v, h1, rfl⟩ := map_some h; rw [shape, val_shapeStruct b h1]
  | .structVariant _ _ _ b, _, h => by rw [val] at h; obtain ⟨v, h1, rfl⟩ := map_some h; rw [shape, val_shapeStruct b h1]
theorem val_shapeSeq : (b : SeqImpl) → ∀ {vs : List SVal}, elements b = some vs → shapeSeq b = vs
  | .elem i k, _, h => by rw [elements] at h; obtain ⟨v, vs, h1, h2, rfl⟩ := prepend_some h; rw [shapeSeq, val_shape i h1, val_shapeSeq _ h2]
  | .fin _, _, h => by rw [elements] at h; rw [shapeSeq]; exact Option.some.inj (keep_some h).2
  | .drop _, _, h => by rw [elements] at h; cases h
theorem val_shapeMap {x : Bool} : (b : MapImpl) → ∀ {vs : List MapOp}, mapOps b = some vs → shapeMap x b = vs
  | .key i k, _, h => by rw [mapOps] at h; obtain ⟨_, vs, h1, h2, rfl⟩ := prepend_some h; obtain ⟨v, h3, rfl⟩ := map_some h1; rw [shapeMap, val_shape i h3, val_shapeMap _ h2]
  | .value i k, _, h => by rw [mapOps] at h; obtain ⟨_, vs, h1, h2, rfl⟩ := prepend_some h; obtain ⟨v, h3, rfl⟩ := map_some h1; rw [shapeMap, val_shape i h3, val_shapeMap _ h2]
  | .fin _, _, h => by rw [mapOps] at h; rw [shapeMap]; exact Option.some.inj (keep_some h).2
  | .drop _, _, h => by rw [mapOps] at h; cases h
theorem val_shapeStruct : (b : StructImpl) → ∀ {vs : List (Text × SVal)}, members b = some vs → shapeStruct b = vs
  | .field _ i k, _, h => by rw [members] at h; obtain ⟨_, vs, h1, h2, rfl⟩ := prepend_some h; obtain ⟨v, h3, rfl⟩ := map_some h1; rw [shapeStruct, val_shape i h3, val_shapeStruct _ h2]
  | .fin _, _, h => by rw [members] at h; rw [shapeStruct]; exact Option.some.inj (keep_some h).2
  | .drop _, _, h => by rw [members] at h; cases h
end

/-- The first tree does the same as the second one, but may end earlier with a result for which `E` holds -/
inductive Tree.Cut {β : Type} (E : β → Prop) : Tree β → Tree β → Prop
  | stop {b : β} {t : Tree β} : E b → Tree.Cut E (.ret b) t
  | ret {b : β} : Tree.Cut E (.ret b) (.ret b)
  | panic {p : WPanic} : Tree.Cut E (.panic p) (.panic p)
  | emit {bs : Bytes} {k k' : Except WErr Unit → Tree β} : (∀ r, Tree.Cut E (k r) (k' r)) → Tree.Cut E (.emit bs k) (.emit bs k')
  | flush {k k' : Except WErr Unit → Tree β} : (∀ r, Tree.Cut E (k r) (k' r)) → Tree.Cut E (.flush k) (.flush k')

theorem Tree.Cut.refl {β : Type} {E : β → Prop} (t : Tree β) : Tree.Cut E t t := by
  induction t with
  | ret b => exact .ret
  | panic => exact .panic
  | emit bs k ih => exact .emit ih
  | flush k ih => exact .flush ih

theorem Tree.Cut.bind {α β : Type} {E : α → Prop} {F : β → Prop} {t t' : Tree α} {f g : α → Tree β} (h : Tree.Cut E t t') (he : ∀ a, E a → ∃ b, f a = .ret b ∧ F b)
    (hf : ∀ a, Tree.Cut F (f a) (g a)) : Tree.Cut F (t.bind f) (t'.bind g) := by
  induction h with
  | stop h =>
    obtain ⟨b, h1, h2⟩ := he _ h
    show Tree.Cut F (f _) _
    rw [h1]
    exact .stop h2
  | ret => exact hf _
  | panic => exact .panic
  | emit _ ih => exact .emit ih
  | flush _ ih => exact .flush ih

/-- An error is returned -/
def Err (b : Except SerErr Unit × Core) : Prop := ∃ e c, b = (.error e, c)

def Cut (m m' : S Unit) : Prop := ∀ c, Tree.Cut Err (m.run c) (m'.run c)

theorem Cut.refl (m : S Unit) : Cut m m := fun _ => .refl _

theorem cut_fail {e : SerErr} {m : S Unit} : Cut (T.fail e) m := fun _ => .stop ⟨_, _, rfl⟩

theorem Cut.bind {m m' : S Unit} {f g : Unit → S Unit} (h : Cut m m') (hk : Cut (f ()) (g ())) : Cut (m >>= f) (m' >>= g) := by
  intro c
  rw [T.run_bind, T.run_bind]
  refine (h c).bind ?_ ?_
  · rintro _ ⟨e, c, rfl⟩
    exact ⟨_, rfl, _, _, rfl⟩
  · rintro ⟨_ | ⟨⟨⟩⟩, c⟩
    · exact .refl _
    · exact hk c

theorem Cut.attempt {m m' : S Unit} {K : Except SerErr Unit → S Unit} {n : Unit → S Unit} (h : Cut m m') (he : ∀ e, ∃ e', K (.error e) = T.fail e') (hk : Cut (K (.ok ())) (n ())) :
    Cut (T.attempt m >>= K) (m' >>= n) := by
  intro c
  rw [T.run_bind, T.run_bind]
  have h := h c
  unfold T.attempt
  dsimp only
  have herr : ∀ e c, ∃ b, (K (.error e)).run c = .ret b ∧ Err b := by
    intro e c
    obtain ⟨e', h1⟩ := he e
    rw [h1]
    exact ⟨_, rfl, _, _, rfl⟩
  generalize m.run c = t at h ⊢
  generalize m'.run c = t' at h ⊢
  induction h with
  | stop h =>
    obtain ⟨e, c, rfl⟩ := h
    obtain ⟨b, h1, h2⟩ := herr e c
    show Tree.Cut Err ((K (.error e)).run c) _
    rw [h1]
    exact .stop h2
  | @ret b =>
    obtain ⟨e | ⟨⟨⟩⟩, c⟩ := b
    · obtain ⟨b, h1, h2⟩ := herr e c
      show Tree.Cut Err ((K (.error e)).run c) _
      rw [h1]
      exact .stop h2
    · exact hk c
  | panic => exact .panic
  | emit _ ih => exact .emit ih
  | flush _ ih => exact .flush ih

theorem Cut.after {r : Ret} {m m' : S Unit} (h : Cut m m') : Cut (r.after m) m' := by
  rw [← bind_pure_s m']
  unfold Ret.after
  refine h.attempt (fun e => ⟨_, rfl⟩) ?_
  dsimp only
  split
  · exact cut_fail
  · exact .refl _

theorem Cut.compound {m m' : S Unit} {err : SerErr → SerErr} {k : S Unit} {n : Unit → S Unit} (h : Cut m m') (hk : Cut k (n ())) : Cut (compound m err k) (m' >>= n) :=
  h.attempt (fun _ => ⟨_, rfl⟩) hk

theorem cut_errKey {err : SerErr → SerErr} {k m : S Unit} : Cut (compound errKeyNotString err k) m := fun _ => .stop ⟨_, _, rfl⟩

theorem cut_key : (i : Impl) → Stops i → Cut (serializeKeyI i) (serializeKey (shape i))
  | .fail _, _ => cut_fail
  | .scalar s r, _ => by rw [serializeKeyI, shape, ← alike_scalarKey]; exact .after (.refl _)
  | .some i r, hs => by rw [serializeKeyI, shape, serializeKey]; exact .after (cut_key i (by rw [Stops] at hs; exact hs))
  | .newtypeStruct i r, hs => by rw [serializeKeyI, shape, serializeKey]; exact .after (cut_key i (by rw [Stops] at hs; exact hs))
  | .newtypeVariant n i r, hs => by rw [serializeKeyI, shape, serializeKey]; exact .after (.refl _)
  | .seq _ _ _, _ => by rw [serializeKeyI]; exact cut_errKey
  | .tuple _ _ _, _ => by rw [serializeKeyI]; exact cut_errKey
  | .tupleStruct _ _ _, _ => by rw [serializeKeyI]; exact cut_errKey
  | .tupleVariant _ _ _ _, _ => by rw [serializeKeyI]; exact cut_errKey
  | .map _ _ _, _ => by rw [serializeKeyI]; exact cut_errKey
  | .struct _ _ _, _ => by rw [serializeKeyI]; exact cut_errKey
  | .structVariant _ _ _ _, _ => by rw [serializeKeyI]; exact cut_errKey

mutual
theorem cut_impl : (i : Impl) → Stops i → Cut (serializeI i) (serialize (shape i))
  | .fail _, _ => cut_fail
  | .scalar s r, _ => by rw [serializeI, shape, ← alike_scalar]; exact .after (.refl _)
  | .some i r, hs => by rw [serializeI, shape, serialize]; exact .after (cut_impl i (by rw [Stops] at hs; exact hs))
  | .newtypeStruct i r, hs => by rw [serializeI, shape, serialize]; exact .after (cut_impl i (by rw [Stops] at hs; exact hs))
  | .newtypeVariant n i r, hs => by
    rw [serializeI, shape, serialize]
    exact .after ((Cut.refl _).bind ((Cut.refl _).bind ((cut_impl i (by rw [Stops] at hs; exact hs)).bind (.refl _))))
  | .seq len err body, hs => by
    rw [serializeI, shape, serialize]
    exact (Cut.refl _).compound (cut_seq len 0 body (by rw [Stops] at hs; exact hs))
  | .tuple len err body, hs => by
    rw [serializeI, shape, serialize]
    exact (Cut.refl _).compound (cut_tuple _ len 0 body (by rw [Stops] at hs; exact hs))
  | .tupleStruct len err body, hs => by
    rw [serializeI, shape, serialize]
    exact (Cut.refl _).compound (cut_tuple _ len 0 body (by rw [Stops] at hs; exact hs))
  | .tupleVariant n len err body, hs => by
    rw [serializeI, shape, serialize]
    have h := (Cut.refl (do onWriter beginObject; onWriter (Writer.name n); onWriter beginArray)).compound (err := err) (n := fun _ => _)
      (cut_tuple (do onWriter endArray; onWriter endObject) len 0 body (by rw [Stops] at hs; exact hs))
    rw [bind_assoc_s, bind_assoc_s] at h
    exact h
  | .map len err body, hs => by
    rw [serializeI, shape, serialize]
    exact (Cut.refl _).compound (cut_map len 0 false body (by rw [Stops] at hs; exact hs))
  | .struct len err body, hs => by
    rw [serializeI, shape, serialize]
    exact (Cut.refl _).compound (cut_struct _ len 0 body (by rw [Stops] at hs; exact hs))
  | .structVariant n len err body, hs => by
    rw [serializeI, shape, serialize]
    have h := (Cut.refl (do onWriter beginObject; onWriter (Writer.name n); onWriter beginObject)).compound (err := err) (n := fun _ => _)
      (cut_struct (do onWriter endObject; onWriter endObject) len 0 body (by rw [Stops] at hs; exact hs))
    rw [bind_assoc_s, bind_assoc_s] at h
    exact h
theorem cut_seq (o : Option Nat) (len : Nat) : (b : SeqImpl) → StopsSeq b → Cut (seqI o len b) (serializeSeq o len (shapeSeq b))
  | .elem i k, hs => by
    rw [shapeSeq]
    rw [StopsSeq] at hs
    have hv := cut_impl i hs.1
    cases o with
    | none => rw [seqI, serializeSeq]; exact hv.attempt (seqI_drop hs.2.1) (cut_seq none len _ hs.2.2)
    | some n =>
      rw [seqI, serializeSeq]
      split
      · obtain ⟨e', he⟩ := seqI_drop (o := some n) (n := len) hs.2.1 (.incorrectElementsCount n (len + 1))
        rw [he]
        exact cut_fail
      · exact hv.attempt (seqI_drop hs.2.1) (cut_seq (some n) (len + 1) _ hs.2.2)
  | .fin r, _ => by
    rw [shapeSeq]
    cases o with
    | none => rw [seqI, serializeSeq]; exact .after (.refl _)
    | some n => rw [seqI, serializeSeq]; exact .after (.refl _)
  | .drop _, _ => by rw [seqI]; exact cut_fail
theorem cut_tuple (m : S Unit) (n len : Nat) : (b : SeqImpl) → StopsSeq b → Cut (tupleI m n len b) (serializeElements n len (shapeSeq b) >>= fun _ => m)
  | .elem i k, hs => by
    rw [shapeSeq]
    rw [StopsSeq] at hs
    have hv := cut_impl i hs.1
    rw [tupleI, serializeElements]
    split
    · obtain ⟨e', he⟩ := tupleI_drop (m := m) (o := n) (n := len) hs.2.1 (.incorrectElementsCount n (len + 1))
      rw [he]
      exact cut_fail
    · rw [bind_assoc_s]
      exact hv.attempt (tupleI_drop hs.2.1) (cut_tuple m n (len + 1) _ hs.2.2)
  | .fin r, _ => by
    rw [shapeSeq, tupleI, serializeElements]
    exact .after (.refl _)
  | .drop _, _ => by rw [tupleI]; exact cut_fail
theorem cut_map (o : Option Nat) (len : Nat) (x : Bool) : (b : MapImpl) → StopsMap b → Cut (mapI o len x b) (serializeMap o len x (shapeMap x b))
  | .key i k, hs => by
    rw [shapeMap]
    rw [StopsMap] at hs
    have hv := cut_key i hs.1
    cases o with
    | none =>
      rw [mapI, serializeMap]
      split
      · exact .refl _
      · exact hv.attempt (mapI_drop hs.2.1) (cut_map none len true _ hs.2.2)
    | some n =>
      rw [mapI, serializeMap]
      split
      · exact .refl _
      · split
        · obtain ⟨e', he⟩ := mapI_drop (o := some n) (n := len) (b := false) hs.2.1 (.incorrectElementsCount n (len + 1))
          rw [he]
          exact cut_fail
        · exact hv.attempt (mapI_drop hs.2.1) (cut_map (some n) (len + 1) true _ hs.2.2)
  | .value i k, hs => by
    rw [shapeMap]
    rw [StopsMap] at hs
    have hv := cut_impl i hs.1
    rw [mapI, serializeMap]
    split
    · exact .refl _
    · exact hv.attempt (mapI_drop hs.2.1) (cut_map o len false _ hs.2.2)
  | .fin r, _ => by
    rw [shapeMap, mapI, serializeMap]
    split
    · exact .refl _
    · cases o with
      | none => exact .after (.refl _)
      | some n => exact .after (.refl _)
  | .drop _, _ => by rw [mapI]; exact cut_fail
theorem cut_struct (m : S Unit) (n len : Nat) : (b : StructImpl) → StopsStruct b → Cut (structI m n len b) (serializeFields n len (shapeStruct b) >>= fun _ => m)
  | .field name i k, hs => by
    rw [shapeStruct]
    rw [StopsStruct] at hs
    have hv := cut_impl i hs.1
    rw [structI, serializeFields]
    split
    · obtain ⟨e', he⟩ := structI_drop (m := m) (o := n) (n := len) hs.2.1 (.incorrectElementsCount n (len + 1))
      rw [he]
      exact cut_fail
    · rw [← bind_assoc_s (onWriter _), bind_assoc_s]
      exact ((Cut.refl _).bind hv).attempt (structI_drop hs.2.1) (cut_struct m n (len + 1) _ hs.2.2)
  | .fin r, _ => by
    rw [shapeStruct, structI, serializeFields]
    exact .after (.refl _)
  | .drop _, _ => by rw [structI]; exact cut_fail
end

end Verif.Ser
