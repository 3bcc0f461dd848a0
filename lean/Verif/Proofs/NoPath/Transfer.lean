import Verif.Proofs.NoPath.Ops
import Verif.Proofs.Transfer.Exec
/-! # `transfer_to` with and without path tracking -/

namespace Verif.NoPath
open Reader Writer Transfer

variable {α β : Type}

abbrev XT := X AbsSrc

/-- an internal panic of the reader -/
def XBad (x : Except TErr α × (St × Core)) : Prop := ∃ i, x.1 = .error (.reader (.panic (.internal i)))

/-- the reader must not be used any further -/
def stops : Except TErr α → Bool
  | .error (.reader e) => e.fatal
  | _ => false

/-- related results -/
def Post (x y : Except TErr α × (St × Core)) : Prop := y.1 = x.1.mapError TErr.noPath ∧ y.2.2 = x.2.2 ∧ (stops x.1 = false → Rl false x.2.1 y.2.1)

/-- related programs -/
def XR (m m' : X AbsSrc α) : Prop := ∀ s s' c, Rl false s s' → Tree.RelX XBad Post (m.run (s, c)) (m'.run (s', c))

theorem XR.bind {m m' : X AbsSrc α} {f f' : α → X AbsSrc β} (hm : XR m m') (hf : ∀ a, XR (f a) (f' a)) : XR (m >>= f) (m' >>= f') := by
  intro s s' c hs
  rw [T.run_bind, T.run_bind]
  refine (hm s s' c hs).bind ?_ ?_
  · rintro ⟨x, s1', c1⟩ ⟨i, h1⟩
    dsimp only at h1
    subst h1
    exact ⟨_, rfl, i, rfl⟩
  rintro ⟨x, s1', c1⟩ ⟨y, s2', c2⟩ ⟨h1, h2, h3⟩
  dsimp only at h1 h2 h3
  subst h1 h2
  cases x with
  | error e => exact .inr ⟨rfl, rfl, by cases e <;> exact h3⟩
  | ok a => exact hf a _ _ _ (h3 rfl)

theorem XR.pure (a : α) : XR (pure a) (pure a) := fun _ _ _ hs => .inr ⟨rfl, rfl, fun _ => hs⟩

theorem XR.ite {p : Prop} [Decidable p] {a b a' b' : X AbsSrc α} (ha : XR a a') (hb : XR b b') : XR (if p then a else b) (if p then a' else b') := by
  split
  · exact ha
  · exact hb

theorem XR.get {f f' : St × Core → X AbsSrc β} (hf : ∀ s c acc, f' (E acc s, c) = f (s, c)) (h : ∀ x, XR (f x) (f x)) : XR (T.get >>= f) (T.get >>= f') := by
  rintro s _ c ⟨acc, ha, rfl⟩
  show Tree.RelX XBad Post ((f (s, c)).run (s, c)) ((f' (E acc s, c)).run (E acc s, c))
  rw [hf]
  exact h (s, c) s _ c ⟨acc, ha, rfl⟩

theorem XR.onReader {m m' : R AbsSrc α} (h : Er false false m m') : XR (onReader m) (onReader m') := by
  intro s s' c hs
  have h := h s s' hs
  unfold Transfer.onReader
  dsimp only
  cases h1 : m.run s with
  | ok a t =>
    rw [h1] at h
    cases h2 : m'.run s' with
    | ok b t' =>
      rw [h2] at h
      obtain ⟨rfl, h⟩ := h
      exact .inr ⟨rfl, rfl, fun _ => h⟩
    | err e t' => rw [h2] at h; exact h.elim
  | err e t =>
    rw [h1] at h
    rcases h with ⟨i, rfl⟩ | ⟨t', h2, h3⟩
    · exact Tree.RelX.x ⟨i, rfl⟩ _
    · rw [h2]; exact .inr ⟨rfl, rfl, h3⟩

theorem XR.onWriter (m : W α) : XR (onWriter m) (onWriter m) := by
  intro s s' c hs
  refine (Tree.Rel.refl (P := Eq) (fun _ => rfl) (m.run c)).relX.bind (X := fun _ => False) (fun _ h => h.elim) ?_
  rintro ⟨x, c'⟩ _ rfl
  cases x <;> exact .inr ⟨rfl, rfl, fun _ => hs⟩

theorem transferFill_er : ∀ (n : Nat) (out : Bytes), I (transferFill n out)
  | 0, _ => Er.fuel
  | n + 1, out => by
    have ih := fun out => transferFill_er n out
    have := @strBytes_er false
    unfold transferFill; er
    exact ih _

theorem transferPiece_er : I transferPiece := by
  have := transferFill_er transferBufSize []
  unfold transferPiece; er

theorem transferStringLoop_xr : ∀ n, XR (transferStringLoop n) (transferStringLoop n)
  | 0 => XR.onReader Er.fuel
  | n + 1 => (XR.onReader transferPiece_er).bind fun _ => (XR.onWriter _).bind fun _ => XR.ite (XR.pure _) (transferStringLoop_xr n)

theorem transferString_xr : XR transferString transferString := by
  refine (XR.onReader sev_er).bind fun _ => (XR.onWriter _).bind fun _ => ?_
  exact XR.get (fun _ _ _ => rfl) fun _ => (transferStringLoop_xr _).bind fun _ => (XR.onWriter _).bind fun _ => XR.onReader onValueEnd_er

theorem transferStart_xr : XR transferStart transferStart := by
  refine (XR.onReader peek_er).bind fun t => ?_
  cases t with
  | array => exact (XR.onReader beginArray_er).bind fun _ => (XR.onWriter _).bind fun _ => XR.pure _
  | object => exact (XR.onReader beginObject_er).bind fun _ => (XR.onWriter _).bind fun _ => XR.pure _
  | string => exact transferString_xr.bind fun _ => XR.pure _
  | number => exact (XR.onReader nextNumberAsStr_er).bind fun _ => (XR.onWriter _).bind fun _ => XR.pure _
  | boolean => exact (XR.onReader nextBool_er).bind fun _ => (XR.onWriter _).bind fun _ => XR.pure _
  | null => exact (XR.onReader nextNull_er).bind fun _ => (XR.onWriter _).bind fun _ => XR.pure _

theorem transferEnd_xr : XR transferEnd transferEnd := by
  refine XR.get (fun _ _ _ => rfl) fun _ => XR.ite ?_ ?_
  · exact (XR.onReader endArray_er).bind fun _ => XR.onWriter _
  · exact (XR.onReader endObject_er).bind fun _ => XR.onWriter _

theorem transferName_xr : XR transferName transferName :=
  XR.get (fun _ _ _ => rfl) fun _ => XR.ite ((XR.onReader nextName_er).bind fun _ => XR.onWriter _) (XR.pure _)

theorem transferLoop_xr : ∀ n d, XR (transferLoop n d) (transferLoop n d)
  | 0, _ => XR.onReader Er.fuel
  | n + 1, d => by
    refine (XR.onReader atContainerEnd_er).bind fun b => ?_
    refine XR.bind (XR.ite ?_ ?_) fun d' => XR.ite (XR.pure _) (transferLoop_xr n _)
    · exact transferEnd_xr.bind fun _ => XR.pure _
    · exact transferName_xr.bind fun _ => transferStart_xr.bind fun _ => XR.pure _

theorem transferTo_xr : XR transferTo transferTo :=
  XR.get (fun _ _ _ => rfl) fun _ => XR.ite (XR.onReader Er.usage) (transferLoop_xr _ _)

/-! ## Programs -/

/-- an internal panic of the reader -/
def OBad (x : Except Empty (TOut AbsSrc) × Core) : Prop := ∃ a i, x.1 = .ok a ∧ a.transfer = some (.error (.reader (.panic (.internal i))))

/-- the same results up to the JSON path -/
def OutRel (x y : Except Empty (TOut AbsSrc) × Core) : Prop :=
  ∃ a b, x.1 = .ok a ∧ y.1 = .ok b ∧ b.pre = a.pre ∧ b.transfer = a.transfer.map (fun r => r.mapError TErr.noPath) ∧ b.post = a.post ∧
    (stopsReader a.transfer = false → Rl false a.reader b.reader)

theorem transferOps_rel (wpre wpost : List WOp) {s s' : St} (h : Rl false s s') (c : Core) :
    Tree.RelX OBad OutRel ((transferOps wpre wpost s).run c) ((transferOps wpre wpost s').run c) := by
  unfold transferOps
  rw [T.run_bind, T.run_bind]
  refine (Tree.Rel.refl (P := Eq) (fun _ => rfl) ((wops wpre).run c)).relX.bind (X := fun _ => False) (fun _ h => h.elim) ?_
  rintro ⟨x, c'⟩ _ rfl
  cases x with
  | error e => exact nomatch e
  | ok pre =>
    dsimp only
    by_cases hp : (pre.any callFailed) = true
    · rw [if_pos hp, if_pos hp]
      exact .inr ⟨_, _, rfl, rfl, rfl, rfl, rfl, fun _ => h⟩
    · rw [if_neg hp, if_neg hp, T.run_bind, T.run_bind]
      refine Tree.RelX.bind (X := fun x => ∃ i t, x.1 = .ok (.error (.reader (.panic (.internal i))), t))
        (P := fun x y => ∃ r t t', x = (.ok (r, t), y.2) ∧ y.1 = .ok (r.mapError TErr.noPath, t') ∧ (stopsReader (some r) = false → Rl false t t')) ?_ ?_ ?_
      · refine (transferTo_xr s s' c' h).bind ?_ ?_
        · rintro ⟨x, t, c1⟩ ⟨i, h1⟩
          dsimp only at h1
          subst h1
          exact ⟨_, rfl, i, t, rfl⟩
        rintro ⟨x, t, c1⟩ ⟨y, t', c2⟩ ⟨h1, h2, h3⟩
        dsimp only at h1 h2 h3
        subst h1 h2
        refine .inr ⟨x, t, t', rfl, rfl, fun hs => h3 ?_⟩
        rcases x with (e | e) | ⟨⟩
        · exact hs
        · rfl
        · rfl
      · rintro ⟨x, c1⟩ ⟨i, t, h1⟩
        dsimp only at h1
        subst h1
        exact ⟨_, rfl, _, i, rfl, rfl⟩
      · rintro x ⟨y, c2⟩ ⟨r, t, t', rfl, h2, h3⟩
        dsimp only at h2
        subst h2
        dsimp only
        cases r with
        | error e => exact .inr ⟨_, _, rfl, rfl, rfl, rfl, rfl, h3⟩
        | ok u =>
          dsimp only [Except.mapError]
          rw [T.run_bind, T.run_bind]
          refine (Tree.Rel.refl (P := Eq) (fun _ => rfl) ((wops wpost).run c2)).relX.bind (X := fun _ => False) (fun _ h => h.elim) ?_
          rintro ⟨x, c'⟩ _ rfl
          cases x with
          | error e => exact nomatch e
          | ok post => exact .inr ⟨_, _, rfl, rfl, rfl, rfl, rfl, h3⟩

theorem stateAfter_rel : ∀ (ops : List Reader.Op) {s s' : St}, Rl false s s' → (∀ i, Except.error (.panic (.internal i)) ∉ runOps ops s) →
    (stateAfter ops s = none ∧ stateAfter ops s' = none) ∨ ∃ t t', stateAfter ops s = some t ∧ stateAfter ops s' = some t' ∧ Rl false t t'
  | [], _, _, h, _ => .inr ⟨_, _, rfl, rfl, h⟩
  | op :: ops, s, s', h, hi => by
    have h1 := runOp_both (op := op) h
    unfold runOps at hi
    unfold stateAfter
    cases hr : (runOp op).run s with
    | ok o t =>
      rw [hr] at h1 hi
      obtain ⟨t', h1, h2⟩ := h1
      rw [h1]
      dsimp only at hi ⊢
      by_cases hc : op = .consumeTrailingWhitespace
      · rw [if_pos hc, if_pos hc]; exact .inl ⟨rfl, rfl⟩
      · rw [if_neg hc, if_neg hc]
        rw [if_neg hc] at hi
        exact stateAfter_rel ops h2 fun i hm => hi i (List.mem_cons_of_mem _ hm)
    | err e t =>
      rw [hr] at h1 hi
      rcases h1 with ⟨i, rfl⟩ | ⟨t', h1, h2⟩
      · exact absurd (List.mem_cons_self ..) (hi i)
      · rw [h1]
        dsimp only at hi ⊢
        rw [fatal_noPath]
        by_cases hc : (e.fatal || decide (op = .consumeTrailingWhitespace)) = true
        · rw [if_pos hc, if_pos hc]; exact .inl ⟨rfl, rfl⟩
        · rw [if_neg hc, if_neg hc]
          rw [if_neg hc] at hi
          refine stateAfter_rel ops (h2 ?_) fun i hm => hi i (List.mem_cons_of_mem _ hm)
          cases hf : e.fatal with
          | false => rfl
          | true => rw [hf] at hc; exact absurd rfl hc

end Verif.NoPath
