import Verif.Proofs.De.Value
/-! # Implementations of `Deserialize` -/

namespace Verif.De
open Reader Json Cursor DeSpec
open Abs (St)

variable {st : Settings} {T : Tops} {b : Meets.Cond} {V : Type} {max : Nat}

/-- errors are passed on -/
abbrev Same : DErr → DErr → Prop := fun e e' => DeSpec.kind e = DeSpec.kind e'

theorem ofExcept_run {α : Type} {r : Except DErr α} {e : DErr} (h : r = .error e) (d : Nat) : (CT.ofExcept r : D α).run d = .ret (.error e, d) := by
  subst h
  rfl

theorem ofExcept_bind_run {α β : Type} {r : Except DErr α} {e : DErr} (h : r = .error e) (f : α → D β) (d : Nat) : ((CT.ofExcept r : D α) >>= f).run d = .ret (.error e, d) := by
  subst h
  rfl

/-- `k` is given the result of `m`; errors are passed on -/
theorem finish_meets {k : Cur} {c : Cur} {d : Nat} {α : Type} {m : D α} {ans : Ans α} {f : Except DErr α → Except DErr V} (hm : DMeets st T b m d k ans (To c))
    (hf : b → ∀ e, ∃ e', f (.error e) = .error e' ∧ Same e e') :
    DMeets st T b (CT.attempt m >>= fun r => CT.ofExcept (f r)) d k (ans >>= fun x => Ans.of (f (.ok x))) (To c) := by
  refine hm.attempt (fun x a k' h _ => ?_) fun hb e d' => ?_
  · obtain ⟨rfl, rfl⟩ := h
    exact ofExcept_meets _
  · obtain ⟨e', h1, h2⟩ := hf hb e
    exact ⟨e', ofExcept_run h1 d', h2⟩

/-- the same with the flag for a consumed variant -/
theorem finish_flag {Q : V × Bool → Prop} {k : Cur} {c : Cur} {d : Nat} {α : Type} {m : D α} {ans : Ans α} {f : Except DErr α → Except DErr V} (hm : DMeets st T b m d k ans (To c))
    (hf : b → ∀ e, ∃ e', f (.error e) = .error e' ∧ Same e e') :
    DMeetsQ st T b (CT.attempt m >>= fun r => CT.ofExcept (f r) >>= fun v => pure (v, true)) d k (ans >>= fun x => Ans.of (f (.ok x))) (fun x a k' => a = (x, true) ∧ k' = c) Q := by
  refine hm.attempt (fun x a k' h _ => ?_) fun hb e d' => ?_
  · obtain ⟨rfl, rfl⟩ := h
    cases f (.ok a) with
    | ok y => exact Meets.pure ⟨rfl, rfl⟩
    | error e => exact Meets.fail rfl
  · obtain ⟨e', h1, h2⟩ := hf hb e
    exact ⟨e', ofExcept_bind_run h1 _ d', h2⟩

/-- code which only consists of an error -/
theorem error_meets {k : Cur} {d : Nat} {α β : Type} {e : DErr} {f : V → D α} {P : β → α → Cur → Prop} {Q : α → Prop} :
    DMeetsQ st T b ((CT.ofExcept (.error e) : D V) >>= f) d k (.err (DeSpec.kind e)) P Q := Meets.fail rfl

theorem hasNext_array {k : Cur} (hk : k.str = false) (i : Nat) (vs : List JVal) : Cursor.step st (k.push (.array i vs)) .hasNext = .ok (.bool !vs.isEmpty) (k.push (.array i vs)) := by
  unfold Cursor.step Cur.push
  dsimp only
  rw [if_neg (by rw [hk]; exact Bool.false_ne_true)]

theorem hasNext_object {k : Cur} (hk : k.str = false) (n : Text) (ms : List (Text × JVal)) : Cursor.step st (k.push (.names n ms)) .hasNext = .ok (.bool !ms.isEmpty) (k.push (.names n ms)) := by
  unfold Cursor.step Cur.push
  dsimp only
  rw [if_neg (by rw [hk]; exact Bool.false_ne_true)]

theorem nextName_object {k : Cur} (hk : k.str = false) (n name : Text) (v : JVal) (ms : List (Text × JVal)) :
    Cursor.step st (k.push (.names n ((name, v) :: ms))) .nextName = .ok (.text name) (k.push (.value name v ms)) := by
  unfold Cursor.step Cur.push
  dsimp only
  rw [if_neg (by rw [hk]; exact Bool.false_ne_true)]

/-- `CT.attempt` of code which has just one result -/
theorem attempt_ok {k c : Cur} {d : Nat} {α β γ : Type} {m : D α} {x : α} {f : Except DErr α → D β} {ans : Ans γ} {P : γ → β → Cur → Prop} {Q : β → Prop} (h : DMeets st T b m d k (.ok x) (To c))
    (hf : DMeetsQ st T b (f (.ok x)) d c ans P Q) (he : b → ∀ e d', ∃ e', (f (.error e)).run d' = .ret (.error e', d') ∧ Same e e') : DMeetsQ st T b (CT.attempt m >>= f) d k ans P Q := by
  show DMeetsQ st T b _ d k ((Answer.ok x : Ans α) >>= fun _ => ans) P Q
  refine Meets.attempt h (fun y a k' h hy => ?_) he
  cases hy
  obtain ⟨rfl, rfl⟩ := h
  exact hf

mutual
theorem deserialize_meets : (c : De V) → (b → Aborts Same c) → (b.strict → DeSpec.Uses c) → ∀ {k : Cur} {env : Env} {x : JVal}, Here st max k env x →
    DMeets st T b (deserialize max c) env.depth k (DeSpec.value env x c) (To k.advance)
  | .ret (.ok _), _, hu, _, _, _, _ => by rw [DeSpec.value]; exact fun _ _ hb => absurd (hu hb) (by rw [DeSpec.Uses]; exact nofun)
  | .ret (.error e), _, hu, _, _, _, _ => by rw [deserialize, DeSpec.value]; exact Meets.fail rfl
  | .call m vis f, hb, hu, k, env, x, h => by
    rw [deserialize, DeSpec.value]
    refine finish_meets (method_meets (visitor_ok vis (fun h => ?_) fun h => ?_) h m) fun h => ?_
    · have := hb h; rw [Aborts] at this; exact this.1
    · have := hu h; rwa [DeSpec.Uses] at this
    · have := hb h; rw [Aborts] at this; exact this.2
theorem visitor_ok : (vis : Vis V) → (b → AbortsVis Same vis) → (b.strict → DeSpec.UsesVis vis) → VisOk st T b max (visitor max vis) (DeSpec.sem vis)
  | .mk prim opt newtype seq map enum, hb, hu => by
    rw [visitor, DeSpec.sem]
    have h : b → Aborts Same opt ∧ Aborts Same newtype ∧ AbortsSeq Same seq ∧ AbortsMap Same map ∧ AbortsEnum Same enum := fun h => by
      have := hb h
      rwa [AbortsVis] at this
    have h' : b.strict → DeSpec.Uses opt ∧ DeSpec.Uses newtype ∧ DeSpec.UsesSeq seq ∧ DeSpec.UsesMap map ∧ DeSpec.UsesEnum enum := fun h => by
      have := hu h
      rwa [DeSpec.UsesVis] at this
    exact
      { prim := fun _ => rfl
        some := fun hx => deserialize_meets opt (fun hb => (h hb).1) (fun hb => (h' hb).1) hx
        newtype := fun hx => deserialize_meets newtype (fun hb => (h hb).2.1) (fun hb => (h' hb).2.1) hx
        seq := fun _ _ hk => visitSeq_meets seq (fun hb => (h hb).2.2.1) (fun hb => (h' hb).2.2.1) hk
        map := fun hk => visitMap_meets map (fun hb => (h hb).2.2.2.1) (fun hb => (h' hb).2.2.2.1) hk
        enum := fun hk => visitEnum_meets enum (fun hb => (h hb).2.2.2.2) (fun hb => (h' hb).2.2.2.2) hk
        unitEnum := fun hx => visitUnitEnum_meets enum (fun hb => (h hb).2.2.2.2) (fun hb => (h' hb).2.2.2.2) hx }
theorem visitSeq_meets : (c : SeqC V) → (b → AbortsSeq Same c) → (b.strict → DeSpec.UsesSeq c) → ∀ {k : Cur} {env : Env} {i : Nat} {vs : List JVal} {expected : Option Nat} {len : Nat}, Inside st max k env →
    DMeets st T b (visitSeq max expected len c) env.depth (k.push (.array i vs)) (DeSpec.seqItems env expected len vs c) (fun x a k' => a = (x.1, x.2.1) ∧ ∃ i', k' = k.push (.array i' x.2.2))
  | .ret r, _, hu, k, env, i, vs, expected, len, _ => by
    rw [visitSeq, DeSpec.seqItems]
    refine (ofExcept_meets r).bind fun x a k' h _ => ?_
    obtain ⟨rfl, rfl⟩ := h
    exact Meets.pure ⟨rfl, i, rfl⟩
  | .next seed f, hb, hu, k, env, i, vs, expected, len, hk => by
    have hb' : b → Aborts Same seed ∧ (∀ x, AbortsSeq Same (f (.ok x))) ∧ ∀ e, ∃ e', f (.error e) = .ret (.error e') ∧ Same e e' := fun h => by
      have := hb h
      rwa [AbortsSeq] at this
    have hu' : b.strict → DeSpec.Uses seed ∧ ∀ r, DeSpec.UsesSeq (f r) := fun h => by
      have := hu h
      rwa [DeSpec.UsesSeq] at this
    have herr : b → ∀ (e : DErr) (d' len : Nat), ∃ e', (visitSeq max expected len (f (.error e))).run d' = .ret (.error e', d') ∧ Same e e' := fun h e d' len => by
      obtain ⟨e', h1, h2⟩ := (hb' h).2.2 e
      rw [h1, visitSeq]
      exact ⟨e', rfl, h2⟩
    rw [visitSeq]
    unfold nextElementSeed
    rw [CT.bind_assoc]
    refine attempt_ok (boolCall_ok (by nofun) (hasNext_array hk.str i vs)) ?_ fun h e d' => herr h e d' len
    cases vs with
    | nil =>
      rw [DeSpec.seqItems]
      exact visitSeq_meets (f (.ok none)) (fun h => (hb' h).2.1 _) (fun h => (hu' h).2 _) hk
    | cons x vs =>
      rw [show (!(x :: vs).isEmpty) = true from rfl]
      dsimp only
      cases expected with
      | none =>
        rw [DeSpec.seqItems]
        dsimp only
        rw [CT.bind_assoc]
        refine (deserialize_meets seed (fun h => (hb' h).1) (fun h => (hu' h).1) hk.item).attempt (fun y a k' h _ => ?_) fun h e d' => herr h e d' len
        obtain ⟨rfl, rfl⟩ := h
        exact visitSeq_meets (f (.ok (some a))) (fun h => (hb' h).2.1 _) (fun h => (hu' h).2 _) hk
      | some n =>
        rw [DeSpec.seqItems]
        dsimp only
        by_cases hn : n ≤ len
        · rw [if_pos hn, if_pos hn]
          intro s _ h
          obtain ⟨e', h1, h2⟩ := herr h (.invalidLength (len + 1) n) env.depth len
          refine ⟨e', env.depth, s, ?_, h2.symm.trans rfl⟩
          show ((visitSeq max (some n) len (f (.error _))).run env.depth).run handle s = _
          rw [h1]
          rfl
        · rw [if_neg hn, if_neg hn, CT.bind_assoc]
          refine (deserialize_meets seed (fun h => (hb' h).1) (fun h => (hu' h).1) hk.item).attempt (fun y a k' h _ => ?_) fun h e d' => herr h e d' (len + 1)
          obtain ⟨rfl, rfl⟩ := h
          exact visitSeq_meets (f (.ok (some a))) (fun h => (hb' h).2.1 _) (fun h => (hu' h).2 _) hk
theorem visitMap_meets : (c : MapC V) → (b → AbortsMap Same c) → (b.strict → DeSpec.UsesMap c) → ∀ {k : Cur} {env : Env} {n : Text} {ms : List (Text × JVal)}, Inside st max k env →
    DMeetsQ st T b (visitMap max false c) env.depth (k.push (.names n ms)) (DeSpec.mapKeys env ms c) (fun x a k' => a = (x.1, false) ∧ ∃ n', k' = k.push (.names n' x.2)) (fun a => a.2 = true)
  | .ret r, _, hu, k, env, n, ms, _ => by
    rw [visitMap, DeSpec.mapKeys]
    refine (ofExcept_meets r).bind fun x a k' h _ => ?_
    obtain ⟨rfl, rfl⟩ := h
    exact Meets.pure ⟨rfl, n, rfl⟩
  | .value _ _, _, hu, _, _, _, _, _ => by rw [DeSpec.mapKeys]; exact Meets.misuse (p := .valueWhenKeyExpected) fun _ => ⟨.inr (.inl rfl), fun s => by rw [visitMap]; rfl⟩
  | .key seed f, hb, hu, k, env, n, ms, hk => by
    have hb' : b → Aborts Same seed ∧ (∀ x, AbortsMap Same (f (.ok x))) ∧ ∀ e, ∃ e', f (.error e) = .ret (.error e') ∧ Same e e' := fun h => by
      have := hb h
      rwa [AbortsMap] at this
    have hu' : b.strict → ∀ r, DeSpec.UsesMap (f r) := fun h => by
      have := hu h
      rwa [DeSpec.UsesMap] at this
    have herr : b → ∀ (e : DErr) (d' : Nat), ∃ e', (visitMap max false (f (.error e))).run d' = .ret (.error e', d') ∧ Same e e' := fun h e d' => by
      obtain ⟨e', h1, h2⟩ := (hb' h).2.2 e
      rw [h1, visitMap]
      exact ⟨e', rfl, h2⟩
    rw [visitMap, nextKeySeed, if_neg Bool.false_ne_true, CT.bind_assoc]
    refine attempt_ok (boolCall_ok (by nofun) (hasNext_object hk.str n ms)) ?_ fun h e d' => herr h e d'
    match ms with
    | [] =>
      rw [DeSpec.mapKeys]
      exact visitMap_meets (f (.ok none)) (fun h => (hb' h).2.1 _) (fun h => hu' h _) hk
    | (name, x) :: ms =>
      rw [DeSpec.mapKeys]
      rw [show (!((name, x) :: ms).isEmpty) = true from rfl]
      dsimp only
      rw [CT.bind_assoc]
      refine attempt_ok (textCall_ok (by nofun) (nextName_object hk.str n name x ms)) ?_ fun h e d' => herr h e d'
      dsimp only
      cases hkey : keyDe name seed with
      | error e =>
        intro s _ h
        obtain ⟨e', h1, h2⟩ := herr h e env.depth
        refine ⟨e', env.depth, s, ?_, h2.symm⟩
        show ((visitMap max false (f (.error _))).run env.depth).run handle s = _
        rw [h1]
        rfl
      | ok key => exact visitMapValue_meets (f (.ok (some key))) (fun h => (hb' h).2.1 _) (fun h => hu' h _) hk
theorem visitMapValue_meets : (c : MapC V) → (b → AbortsMap Same c) → (b.strict → DeSpec.UsesMap c) → ∀ {k : Cur} {env : Env} {name : Text} {x : JVal} {ms : List (Text × JVal)}, Inside st max k env →
    DMeetsQ st T b (visitMap max true c) env.depth (k.push (.value name x ms)) (DeSpec.mapValue env x ms c) (fun x a k' => a = (x.1, false) ∧ ∃ n', k' = k.push (.names n' x.2)) (fun a => a.2 = true)
  | .ret (.ok _), _, hu, _, _, _, _, _, _ => by rw [visitMap, DeSpec.mapValue]; exact Meets.flag rfl
  | .ret (.error e), _, hu, _, _, _, _, _, _ => by rw [visitMap, DeSpec.mapValue]; exact error_meets
  | .key _ _, _, hu, _, _, _, _, _, _ => by rw [DeSpec.mapValue]; exact Meets.misuse (p := .keyWhenValueExpected) fun _ => ⟨.inl rfl, fun s => by rw [visitMap]; rfl⟩
  | .value seed f, hb, hu, k, env, name, x, ms, hk => by
    have hb' : b → Aborts Same seed ∧ (∀ x, AbortsMap Same (f (.ok x))) ∧ ∀ e, ∃ e', f (.error e) = .ret (.error e') ∧ Same e e' := fun h => by
      have := hb h
      rwa [AbortsMap] at this
    have hu' : b.strict → DeSpec.Uses seed ∧ ∀ r, DeSpec.UsesMap (f r) := fun h => by
      have := hu h
      rwa [DeSpec.UsesMap] at this
    rw [visitMap, nextValueSeed, if_neg (by exact Bool.false_ne_true), DeSpec.mapValue]
    refine (deserialize_meets seed (fun h => (hb' h).1) (fun h => (hu' h).1) hk.member).attempt (fun y a k' h _ => ?_) fun h e d' => ?_
    · obtain ⟨rfl, rfl⟩ := h
      exact visitMap_meets (f (.ok a)) (fun h => (hb' h).2.1 _) (fun h => (hu' h).2 _) hk
    · obtain ⟨e', h1, h2⟩ := (hb' h).2.2 e
      rw [h1, visitMap]
      exact ⟨e', rfl, h2⟩
theorem visitEnum_meets : (c : EnumC V) → (b → AbortsEnum Same c) → (b.strict → DeSpec.UsesEnum c) → ∀ {k : Cur} {env : Env} {n : Text} {ms : List (Text × JVal)}, Inside st max k env →
    DMeetsQ st T b (visitEnum max c) env.depth (k.push (.names n ms)) (DeSpec.enumObj env ms c) (fun x a k' => a = (x.1, true) ∧ ∃ n', k' = k.push (.names n' x.2)) (fun a => a.2 = false)
  | .ret (.ok _), _, hu, _, _, _, _, _ => by rw [visitEnum, DeSpec.enumObj]; exact Meets.flag rfl
  | .ret (.error e), _, hu, _, _, _, _, _ => by rw [visitEnum, DeSpec.enumObj]; exact error_meets
  | .variant seed onError f, hb, hu, k, env, n, ms, hk => by
    have hb' : b → Aborts Same seed ∧ (∀ x, AbortsVar Same (f x)) ∧ ∀ e, ∃ e', onError e = .error e' ∧ Same e e' := fun h => by
      have := hb h
      rwa [AbortsEnum] at this
    have hu' : b.strict → DeSpec.Uses seed ∧ ∀ x, DeSpec.UsesVar (f x) := fun h => by
      have := hu h
      rwa [DeSpec.UsesEnum] at this
    rw [visitEnum]
    match ms with
    | [] =>
      rw [DeSpec.enumObj]
      show DMeetsQ st T b _ _ _ ((Answer.err (.reader (.structure .fewerElementsThanExpected)) : Ans Text) >>= fun _ => Answer.misuse) _ _
      refine Meets.attempt (P := To k) ?_ (fun _ _ _ _ h => nomatch h) fun h e d' => ?_
      · unfold textCall
        refine onReader_err (by nofun) ?_ (by nofun)
        unfold Cursor.step Cur.push
        dsimp only
        rw [if_neg (by rw [hk.str]; exact Bool.false_ne_true)]
        rfl
      · obtain ⟨e', h1, h2⟩ := (hb' h).2.2 e
        exact ⟨e', ofExcept_bind_run h1 _ d', h2⟩
    | (name, x) :: ms =>
      rw [DeSpec.enumObj]
      refine attempt_ok (textCall_ok (by nofun) (nextName_object hk.str n name x ms)) ?_ fun h e d' => ?_
      · dsimp only
        cases hkey : strDe name seed with
        | error e =>
          intro s _ h
          obtain ⟨e', h1, h2⟩ := (hb' h).2.2 e
          refine ⟨e', env.depth, s, ?_, h2.symm⟩
          dsimp only
          rw [h1]
          rfl
        | ok y =>
          intro s hs
          have h1 := visitVariant_meets (f y) (fun h => (hb' h).2.1 y) (fun h => (hu' h).2 y) hk.member s hs
          show Meets.Post _ _ _ _ _ _ (DeSpec.variant env x (f y) >>= fun y => pure (y, ms)) _ _
          cases hv : DeSpec.variant env x (f y) with
          | ok z =>
            rw [hv] at h1
            obtain ⟨a, k', s', h2, h3, h4, h5⟩ := h1
            exact ⟨a, k', s', h2, h3, h4, name, h5⟩
          | err e => rw [hv] at h1; exact h1
          | misuse => rw [hv] at h1; exact h1
      · obtain ⟨e', h1, h2⟩ := (hb' h).2.2 e
        exact ⟨e', ofExcept_bind_run h1 _ d', h2⟩
theorem visitVariant_meets : (c : VarC V) → (b → AbortsVar Same c) → (b.strict → DeSpec.UsesVar c) → ∀ {k : Cur} {env : Env} {x : JVal}, Here st max k env x →
    DMeetsQ st T b (visitVariant max c) env.depth k (DeSpec.variant env x c) (fun x a k' => a = (x, true) ∧ k' = k.advance) (fun a => a.2 = false)
  | .ret (.ok _), _, hu, _, _, _, _ => by rw [visitVariant, DeSpec.variant]; exact Meets.flag rfl
  | .ret (.error e), _, hu, _, _, _, _ => by rw [visitVariant, DeSpec.variant]; exact error_meets
  | .unit f, hb, hu, k, env, x, h => by
    rw [visitVariant]
    have hb' : b → ∀ e, ∃ e', f (.error e) = .error e' ∧ Same e e' := fun h => by have := hb h; rwa [AbortsVar] at this
    unfold deserializeUnitType
    cases x with
    | null =>
      rw [DeSpec.variant]
      show DMeetsQ st T b _ _ _ ((Answer.ok () : Ans Unit) >>= fun x => Ans.of (f (.ok x))) _ _
      exact finish_flag (unitCall_ok (by nofun) (v := .unit) (by unfold Cursor.step; dsimp only; rw [h.withValue])) hb'
    | _ =>
      rw [DeSpec.variant]
      · show DMeetsQ st T b _ _ _ ((DeSpec.wrongType .null _ : Ans Unit) >>= fun x => Ans.of (f (.ok x))) _ _
        refine finish_flag ?_ hb'
        unfold unitCall
        exact h.wrong (by nofun) (by unfold Cursor.step; dsimp only; rw [h.withValue])
      · nofun
  | .newtype seed f, hb, hu, k, env, x, h => by
    rw [visitVariant, DeSpec.variant]
    have hb' : b → Aborts Same seed ∧ ∀ e, ∃ e', f (.error e) = .error e' ∧ Same e e' := fun h => by have := hb h; rwa [AbortsVar] at this
    exact finish_flag (deserialize_meets seed (fun h => (hb' h).1) (fun h => by have := hu h; rwa [DeSpec.UsesVar] at this) h) fun h => (hb' h).2
  | .tuple n vis f, hb, hu, k, env, x, h => by
    rw [visitVariant, DeSpec.variant]
    have hb' : b → AbortsVis Same vis ∧ ∀ e, ∃ e', f (.error e) = .error e' ∧ Same e e' := fun h => by have := hb h; rwa [AbortsVar] at this
    exact finish_flag (method_meets (visitor_ok vis (fun h => (hb' h).1) fun h => by have := hu h; rwa [DeSpec.UsesVar] at this) h (.tuple n)) fun h => (hb' h).2
  | .struct vis f, hb, hu, k, env, x, h => by
    rw [visitVariant, DeSpec.variant]
    have hb' : b → AbortsVis Same vis ∧ ∀ e, ∃ e', f (.error e) = .error e' ∧ Same e e' := fun h => by have := hb h; rwa [AbortsVar] at this
    exact finish_flag (method_meets (visitor_ok vis (fun h => (hb' h).1) fun h => by have := hu h; rwa [DeSpec.UsesVar] at this) h .struct) fun h => (hb' h).2
theorem visitUnitEnum_meets : (c : EnumC V) → (b → AbortsEnum Same c) → (b.strict → DeSpec.UsesEnum c) → ∀ {k : Cur} {env : Env} {x : JVal}, Here st max k env x →
    DMeetsQ st T b (visitUnitEnum max c) env.depth k (DeSpec.enumStr env x c) (fun x a k' => a = (x, true) ∧ k' = k.advance) (fun a => a.2 = false)
  | .ret (.ok _), _, hu, _, _, _, _ => by rw [visitUnitEnum, DeSpec.enumStr]; exact Meets.flag rfl
  | .ret (.error e), _, hu, _, _, _, _ => by rw [visitUnitEnum, DeSpec.enumStr]; exact error_meets
  | .variant seed onError f, hb, hu, k, env, x, h => by
    have hb' : b → Aborts Same seed ∧ (∀ x, AbortsVar Same (f x)) ∧ ∀ e, ∃ e', onError e = .error e' ∧ Same e e' := fun h => by
      have := hb h
      rwa [AbortsEnum] at this
    have hu' : b.strict → DeSpec.Uses seed ∧ ∀ x, DeSpec.UsesVar (f x) := fun h => by
      have := hu h
      rwa [DeSpec.UsesEnum] at this
    rw [visitUnitEnum, DeSpec.enumStr]
    refine (deserialize_meets seed (fun h => (hb' h).1) (fun h => (hu' h).1) h).attempt (fun y a k' hy _ => ?_) fun h e d' => ?_
    · obtain ⟨rfl, rfl⟩ := hy
      exact visitUnitVariant_meets (f a) (fun h => (hb' h).2.1 a) fun h => (hu' h).2 a
    · obtain ⟨e', h1, h2⟩ := (hb' h).2.2 e
      exact ⟨e', ofExcept_bind_run h1 _ d', h2⟩
theorem visitUnitVariant_meets : (c : VarC V) → (b → AbortsVar Same c) → (b.strict → DeSpec.UsesVar c) → ∀ {k : Cur} {d : Nat},
    DMeetsQ st T b (CT.ofExcept (visitUnitVariant max c).1 >>= fun v => pure (v, (visitUnitVariant max c).2)) d k (DeSpec.unitVariant c) (fun x a k' => a = (x, true) ∧ k' = k) (fun a => a.2 = false)
  | .ret (.ok _), _, hu, _, _ => by rw [visitUnitVariant, DeSpec.unitVariant]; exact Meets.flag rfl
  | .ret (.error e), _, hu, _, _ => by rw [visitUnitVariant, DeSpec.unitVariant]; exact error_meets
  | .unit f, _, hu, _, _ => by
    rw [visitUnitVariant, DeSpec.unitVariant]
    cases f (.ok ()) with
    | ok y => exact Meets.pure ⟨rfl, rfl⟩
    | error e => exact Meets.fail rfl
  | .newtype seed f, hb, hu, k, d => by
    rw [visitUnitVariant, DeSpec.unitVariant]
    · intro s _ h
      have := hb h
      rw [AbortsVar] at this
      obtain ⟨e', h1, h2⟩ := this.2 (.invalidType .unitVariant)
      refine ⟨e', d, s, ?_, h2.symm⟩
      dsimp only
      rw [h1]
      rfl
    · nofun
    · nofun
    · nofun
  | .tuple n vis f, hb, hu, k, d => by
    rw [visitUnitVariant, DeSpec.unitVariant]
    · intro s _ h
      have := hb h
      rw [AbortsVar] at this
      obtain ⟨e', h1, h2⟩ := this.2 (.invalidType .unitVariant)
      refine ⟨e', d, s, ?_, h2.symm⟩
      dsimp only
      rw [h1]
      rfl
    · nofun
    · nofun
    · nofun
  | .struct vis f, hb, hu, k, d => by
    rw [visitUnitVariant, DeSpec.unitVariant]
    · intro s _ h
      have := hb h
      rw [AbortsVar] at this
      obtain ⟨e', h1, h2⟩ := this.2 (.invalidType .unitVariant)
      refine ⟨e', d, s, ?_, h2.symm⟩
      dsimp only
      rw [h1]
      rfl
    · nofun
    · nofun
    · nofun
end

end Verif.De
