import Verif.Proofs.Writer.Exec

/-!
Properties of the results which hold whatever the underlying `Write` does.
-/

namespace Verif.Writer

/-- all results, whatever the answers of the underlying `Write` are -/
def Tree.All {β : Type} (P : β → Prop) : Tree β → Prop
  | .ret b => P b
  | .panic _ => True
  | .emit _ k => ∀ r, (k r).All P
  | .flush k => ∀ r, (k r).All P

theorem Tree.All.mono {β : Type} {P Q : β → Prop} {t : Tree β} (h : t.All P) (hpq : ∀ b, P b → Q b) : t.All Q := by
  induction t with
  | ret b => exact hpq b h
  | panic _ => trivial
  | emit _ _ ih => exact fun r => ih r (h r)
  | flush _ ih => exact fun r => ih r (h r)

theorem Tree.All.bind {α β : Type} {P : α → Prop} {Q : β → Prop} {t : Tree α} {f : α → Tree β} (h : t.All P) (hf : ∀ a, P a → (f a).All Q) : (t.bind f).All Q := by
  induction t with
  | ret b => exact hf b h
  | panic _ => trivial
  | emit _ _ ih => exact fun r => ih r (h r)
  | flush _ ih => exact fun r => ih r (h r)

theorem Tree.all_true {β : Type} (t : Tree β) : t.All fun _ => True := by
  induction t with
  | ret b => trivial
  | panic _ => trivial
  | emit _ _ ih => exact ih
  | flush _ ih => exact ih

theorem all_run {β : Type} {P : β → Prop} {t : Tree β} (h : t.All P) {k : BufSink} {b : β} (hr : resOf (t.run.run k) = .ok b) : P b := by
  induction t generalizing k with
  | ret b' =>
    have : Except.ok b' = (Except.ok b : Except WPanic β) := hr
    injection this with this
    exact this ▸ h
  | panic p => cases hr
  | emit bs f ih =>
    rw [Tree.run] at hr
    dsimp only at hr
    split at hr
    · exact ih _ (h _) hr
    · exact ih _ (h _) hr
    · cases hr
  | flush f ih =>
    rw [Tree.run] at hr
    dsimp only at hr
    split at hr
    · exact ih _ (h _) hr
    · exact ih _ (h _) hr
    · cases hr

/-- errors are followed by errors only -/
def StickyList : List (Except WErr Nat) → Prop
  | [] => True
  | r :: rs => (∀ e, r = .error e → ∀ x ∈ rs, ∃ e, x = .error e) ∧ StickyList rs

theorem sticky_get {xs : List (Except WErr Nat)} (h : StickyList xs) : ∀ i j (hi : i < xs.length) (hj : j < xs.length), i < j → (∃ e, xs[i] = .error e) → ∃ e, xs[j] = .error e := by
  induction xs with
  | nil => exact fun i _ hi => absurd hi (Nat.not_lt_zero _)
  | cons x xs ih =>
    intro i j hi hj hij
    cases j with
    | zero => exact absurd hij (Nat.not_lt_zero _)
    | succ j =>
      cases i with
      | zero => exact fun ⟨e, he⟩ => h.1 e he _ (List.getElem_mem _)
      | succ i => exact ih h.2 i j (by simpa using hi) (by simpa using hj) (by omega)

theorem track_all {α : Type} (m : W α) (s : Core) :
    ((runWithErrorTracking m).run s).All fun r => ∀ e, r.1 = .error e → r.2.sv.error ≠ none := by
  unfold runWithErrorTracking
  rw [T.run_bind]
  rcases checkPreviousError_cases s with ⟨h1, h2⟩ | ⟨e, h1, h2⟩
  · rw [h2]
    show (T.run (T.attempt m >>= _) s).All _
    rw [T.run_bind]
    refine Tree.All.bind (P := fun r => ∃ x, r.1 = .ok x) ?_ ?_
    · show (Tree.bind (m.run s) _).All _
      exact Tree.All.bind (Tree.all_true _) fun a _ => ⟨_, rfl⟩
    · rintro ⟨x, s'⟩ ⟨y, hy⟩
      dsimp only at hy
      subst hy
      cases y with
      | ok a => exact fun e h => by cases h
      | error e =>
        show Tree.All _ (T.run (T.modify _ >>= _) s')
        exact fun _ _ => nofun
  · rw [h2]
    exact fun _ _ => by rw [h1]; exact nofun

theorem svOp_all (o : SvOp) (s : Core) : ((svOp o).run s).All fun r => ∀ e, r.1 = .error e → r.2.sv.error ≠ none := by
  have key : ∀ m : W Unit, ((runWithErrorTracking m >>= fun _ => pure 0 : W Nat).run s).All fun r => ∀ e, r.1 = .error e → r.2.sv.error ≠ none := by
    intro m
    rw [T.run_bind]
    refine (track_all m s).bind ?_
    rintro ⟨x | x, s'⟩ h
    · exact fun e he => h x rfl
    · exact fun e he => by cases he
  cases o with
  | write bs => exact track_all _ s
  | writeStr t => exact key _
  | flush => exact key _

theorem svOps_all (ops : List SvOp) (s : Core) :
    ((svOps ops).run s).All fun r => ∃ xs, r.1 = .ok xs ∧ StickyList xs ∧ ((∃ x ∈ xs, ∃ e, x = .error e) → r.2.sv.error ≠ none) := by
  induction ops generalizing s with
  | nil => exact ⟨[], rfl, trivial, fun ⟨x, h, _⟩ => by cases h⟩
  | cons o os ih =>
    rw [svOps, T.run_bind]
    refine Tree.All.bind (P := fun r => ∃ x, r.1 = .ok x ∧ ∀ e, x = .error e → r.2.sv.error ≠ none) ?_ ?_
    · show (Tree.bind ((svOp o).run s) _).All _
      refine (svOp_all o s).bind ?_
      rintro ⟨x, s'⟩ h
      exact ⟨x, rfl, h⟩
    · rintro ⟨x, s'⟩ ⟨y, hy, h⟩
      dsimp only at hy h
      subst hy
      show Tree.All _ (T.run (svOps os >>= _) s')
      rw [T.run_bind]
      cases hx : y with
      | error e =>
        have he := h e hx
        cases hs : s'.sv.error with
        | none => exact absurd hs he
        | some e' =>
          rw [svOps_sticky hs]
          refine ⟨_, rfl, ⟨fun _ _ x hx => ?_, ?_⟩, fun _ => by rw [hs]; nofun⟩
          · obtain ⟨_, _, rfl⟩ := List.mem_map.1 hx; exact ⟨_, rfl⟩
          · clear ih
            induction os with
            | nil => trivial
            | cons o os ih => exact ⟨fun _ _ x hx => by obtain ⟨_, _, rfl⟩ := List.mem_map.1 hx; exact ⟨_, rfl⟩, ih⟩
      | ok n =>
        refine (ih s').bind ?_
        rintro ⟨z, s2⟩ ⟨xs, hz, h1, h2⟩
        dsimp only at hz
        subst hz
        refine ⟨_, rfl, ⟨fun _ he => (by cases he), h1⟩, ?_⟩
        rintro ⟨x, hx, e, he⟩
        rcases List.mem_cons.1 hx with h3 | h3
        · rw [he] at h3; cases h3
        · exact h2 ⟨x, h3, e, he⟩

/-- what is proven about results of calls -/
def StickyOut (o : WOut) : Prop := ∀ xs f, o = .string xs f → StickyList xs ∧ ((∃ x ∈ xs, ∃ e, x = .error e) → f ≠ some (.ok ()))

theorem sticky_unit (m : W Unit) (s : Core) : ((m >>= fun _ => pure WOut.unit : W WOut).run s).All fun r => ∀ o, r.1 = .ok o → StickyOut o := by
  rw [T.run_bind]
  refine (Tree.all_true _).bind ?_
  rintro ⟨x | x, s'⟩ _
  · exact fun o h => by cases h
  · exact fun o h => by injection h with h; subst h; exact nofun

theorem sticky_wop (o : WOp) (s : Core) : ((wop o).run s).All fun r => ∀ o, r.1 = .ok o → StickyOut o := by
  cases o with
  | stringValueWriter ops fin =>
    show (T.run (stringValueWriter >>= _) s).All _
    rw [T.run_bind]
    refine (Tree.all_true _).bind ?_
    rintro ⟨x | x, s'⟩ _
    · exact fun o h => by cases h
    show Tree.All _ (T.run (svOps ops >>= _) s')
    rw [T.run_bind]
    refine (svOps_all ops s').bind ?_
    rintro ⟨z, s2⟩ ⟨xs, hz, h1, h2⟩
    dsimp only at hz
    subst hz
    dsimp only
    cases fin with
    | false =>
      intro o h
      injection h with h
      subst h
      rintro _ _ ⟨⟩
      exact ⟨h1, fun _ => nofun⟩
    | true =>
      show Tree.All _ (T.run (T.attempt svFinishValue >>= _) s2)
      rw [T.run_bind]
      by_cases hbad : ∃ x ∈ xs, ∃ e, x = .error e
      · have he := h2 hbad
        cases hs : s2.sv.error with
        | none => exact absurd hs he
        | some e' =>
          show Tree.All _ (Tree.bind (Tree.bind (svFinishValue.run s2) _) _)
          rw [svFinish_sticky hs]
          intro o h
          injection h with h
          subst h
          rintro _ _ ⟨⟩
          exact ⟨h1, fun _ => nofun⟩
      · refine Tree.All.bind (P := fun r => ∃ x, r.1 = .ok x) ?_ ?_
        · show (Tree.bind _ _).All _
          exact Tree.All.bind (Tree.all_true _) fun a _ => ⟨_, rfl⟩
        · rintro ⟨x, s'⟩ ⟨y, hy⟩
          dsimp only at hy
          subst hy
          intro o h
          injection h with h
          subst h
          rintro _ _ ⟨⟩
          exact ⟨h1, fun h => absurd h hbad⟩
  | _ => exact sticky_unit _ s

theorem sticky_wops (ops : List WOp) (s : Core) : ((wops ops).run s).All fun r => ∀ rs, r.1 = .ok rs → ∀ x ∈ rs, ∀ xs f, x = .ok (.string xs f) →
    StickyList xs ∧ ((∃ x ∈ xs, ∃ e, x = .error e) → f ≠ some (.ok ())) := by
  induction ops generalizing s with
  | nil => exact fun rs h x hx => by injection h with h; subst h; cases hx
  | cons o os ih =>
    rw [wops]
    refine (sticky_wop o s).bind ?_
    rintro ⟨x | x, s'⟩ h
    · dsimp only
      split
      · refine (ih s').bind ?_
        rintro ⟨y | y, s2⟩ h2
        · exact nomatch y
        · intro rs hrs z hz xs f hzz
          injection hrs with hrs
          subst hrs
          rcases List.mem_cons.1 hz with rfl | hz
          · cases hzz
          · exact h2 y rfl z hz xs f hzz
      · intro rs hrs z hz xs f hzz
        injection hrs with hrs
        subst hrs
        rw [List.mem_singleton.1 hz] at hzz
        cases hzz
    · have hx : ∀ xs f, (Except.ok x : Except WErr WOut) = .ok (.string xs f) → StickyList xs ∧ ((∃ x ∈ xs, ∃ e, x = .error e) → f ≠ some (.ok ())) :=
        fun xs f he => h x rfl xs f (by injection he)
      dsimp only
      split
      · intro rs hrs z hz xs f hzz
        injection hrs with hrs
        subst hrs
        rw [List.mem_singleton.1 hz] at hzz
        exact hx xs f hzz
      · refine (ih s').bind ?_
        rintro ⟨y | y, s2⟩ h2
        · exact nomatch y
        · intro rs hrs z hz xs f hzz
          injection hrs with hrs
          subst hrs
          rcases List.mem_cons.1 hz with rfl | hz
          · exact hx xs f hzz
          · exact h2 y rfl z hz xs f hzz

theorem exec_all {N : Nat} {st : WSettings} {sink : Sink} {ops : List WOp} {P : List (Except WErr WOut) → Prop}
    (h : ((wops ops).run (Core.new st)).All fun r => ∀ rs, r.1 = .ok rs → P rs) {rs : List (Except WErr WOut)} (hr : (execW N st sink ops).1 = .ok rs) : P rs := by
  have := fun b => all_run h (k := BufSink.new N sink) (b := b)
  unfold execW at hr
  revert this hr
  generalize ((wops ops).run (Core.new st)).run.run (BufSink.new N sink) = r
  match r with
  | .ok (.ok rs', _) k =>
    intro hr this
    have hr : Except.ok rs' = (Except.ok rs : Except WPanic _) := hr
    injection hr with hr
    subst hr
    exact this _ rfl _ rfl
  | .ok (.error e, _) _ => exact nomatch e
  | .err p k => exact fun hr => by cases hr

end Verif.Writer
