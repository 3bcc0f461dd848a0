import Verif.Proofs.Ser.Impl
import Verif.Proofs.Ser.Exec
/-!
# Programs which serialize with an implementation which obeys the documentation
-/

namespace Verif.Ser
open Writer SerSpec

variable {α β γ δ : Type}

/-! ## Execution of a tree in two parts -/

theorem tree_run_bind (t : Tree α) (f : α → Tree β) (k : BufSink) : (t.bind f).run.run k = match t.run.run k with
    | .ok a k' => (f a).run.run k'
    | .err p k' => .err p k' := by
  induction t generalizing k with
  | ret b => rfl
  | panic p => rfl
  | emit bs g ih =>
    rw [Tree.bind, Tree.run, Tree.run]
    dsimp only
    generalize (Writer.writeBytes bs).run k = r
    match r with
    | .ok () k' => exact ih _ k'
    | .err (.err e) k' => exact ih _ k'
    | .err (.panic p) k' => rfl
  | flush g ih =>
    rw [Tree.bind, Tree.run, Tree.run]
    dsimp only
    generalize Writer.flush.run k = r
    match r with
    | .ok () k' => exact ih _ k'
    | .err (.err e) k' => exact ih _ k'
    | .err (.panic p) k' => rfl

/-! ## Equality except for the errors -/

/-- the result without the error -/
def blur : Except SerErr Unit × Core → Bool × Core
  | (.ok _, c) => (true, c)
  | (.error _, c) => (false, c)

/-- the result of the execution without the error -/
def blurRes : Res WPanic BufSink (Except SerErr Unit × Core) → Res WPanic BufSink (Bool × Core)
  | .ok b k => .ok (blur b) k
  | .err p k => .err p k

theorem Tree.Alike.run {t t' : Tree (Except SerErr Unit × Core)} (h : Tree.Alike t t') (k : BufSink) : blurRes (t.run.run k) = blurRes (t'.run.run k) := by
  induction h generalizing k with
  | ok => rfl
  | error => rfl
  | panic => rfl
  | @emit bs g g' _ ih =>
    rw [Tree.run, Tree.run]
    dsimp only
    generalize (Writer.writeBytes bs).run k = r
    match r with
    | .ok () k' => exact ih _ k'
    | .err (.err e) k' => exact ih _ k'
    | .err (.panic p) k' => rfl
  | flush _ ih =>
    rw [Tree.run, Tree.run]
    dsimp only
    generalize Writer.flush.run k = r
    match r with
    | .ok () k' => exact ih _ k'
    | .err (.err e) k' => exact ih _ k'
    | .err (.panic p) k' => rfl

theorem NoOk.run {t : Tree (Except SerErr Unit × Core)} (h : NoOk t) (k : BufSink) {c : Core} {k' : BufSink} : t.run.run k ≠ .ok (.ok (), c) k' := by
  induction t generalizing k with
  | ret b =>
    obtain ⟨_ | ⟨⟨⟩⟩, c⟩ := b
    · rintro ⟨⟩
    · exact h.elim
  | panic => rintro ⟨⟩
  | emit bs g ih =>
    rw [Tree.run]
    dsimp only
    generalize (Writer.writeBytes bs).run k = r
    match r with
    | .ok () k' => exact ih _ (h _) k'
    | .err (.err e) k' => exact ih _ (h _) k'
    | .err (.panic p) k' => rintro ⟨⟩
  | flush g ih =>
    rw [Tree.run]
    dsimp only
    generalize Writer.flush.run k = r
    match r with
    | .ok () k' => exact ih _ (h _) k'
    | .err (.err e) k' => exact ih _ (h _) k'
    | .err (.panic p) k' => rintro ⟨⟩

theorem Tree.Cut.run {E : β → Prop} {t t' : Tree β} (h : Tree.Cut E t t') (k : BufSink) : match t.run.run k with
    | .ok b k' => E b ∨ t'.run.run k = .ok b k'
    | .err p k' => t'.run.run k = .err p k' := by
  induction h generalizing k with
  | stop h => exact .inl h
  | ret => exact .inr rfl
  | panic => rfl
  | @emit bs g g' _ ih =>
    rw [Tree.run, Tree.run]
    dsimp only
    generalize (Writer.writeBytes bs).run k = r
    match r with
    | .ok () k' => exact ih _ k'
    | .err (.err e) k' => exact ih _ k'
    | .err (.panic p) k' => rfl
  | flush _ ih =>
    rw [Tree.run, Tree.run]
    dsimp only
    generalize Writer.flush.run k = r
    match r with
    | .ok () k' => exact ih _ k'
    | .err (.err e) k' => exact ih _ k'
    | .err (.panic p) k' => rfl

/-! ## Programs -/

variable {N : Nat} {wst : WSettings} {sink : Sink} {wpre wpost : List WOp} {m m' : S Unit}

/-- the part of the program from `serialize_value` on -/
def restProg (pre : List (Except WErr WOut)) (m : S Unit) (wpost : List WOp) (c : Core) (k : BufSink) : Except WPanic SerOut × Sink :=
  if pre.any Transfer.callFailed then (.ok ⟨pre, none, []⟩, k.sink)
  else match (m.run c).run.run k with
    | .err p k' => (.error p, k'.sink)
    | .ok (.error e, _) k' => (.ok ⟨pre, some (.error e), []⟩, k'.sink)
    | .ok (.ok (), c') k' => match ((wops wpost).run c').run.run k' with
      | .err p k'' => (.error p, k''.sink)
      | .ok (.error e, _) _ => nomatch e
      | .ok (.ok post, _) k'' => (.ok ⟨pre, some (.ok ()), post⟩, k''.sink)

/-- the result of the program -/
def outOf : Res WPanic BufSink (Except Empty SerOut × Core) → Except WPanic SerOut × Sink
  | .ok (.ok r, _) k => (.ok r, k.sink)
  | .ok (.error e, _) _ => nomatch e
  | .err p k => (.error p, k.sink)

theorem execProg_out {x : T Empty Core SerOut} : execProg N wst sink x = outOf ((x.run (Core.new wst)).run.run (BufSink.new N sink)) := rfl

theorem execProg_eq : execProg N wst sink (progOps wpre m wpost) = match ((wops wpre).run (Core.new wst)).run.run (BufSink.new N sink) with
    | .err p k => (.error p, k.sink)
    | .ok (.error e, _) _ => nomatch e
    | .ok (.ok pre, c) k => restProg pre m wpost c k := by
  rw [execProg_out]
  unfold progOps
  rw [T.run_bind, tree_run_bind]
  generalize ((wops wpre).run (Core.new wst)).run.run (BufSink.new N sink) = r1
  match r1 with
  | .err p k => rfl
  | .ok (.error e, _) _ => exact nomatch e
  | .ok (.ok pre, c) k =>
    dsimp only
    unfold restProg
    by_cases hp : pre.any Transfer.callFailed = true
    · rw [if_pos hp, if_pos hp]
      rfl
    · rw [if_neg hp, if_neg hp, T.run_bind, tree_run_bind, tree_run_bind]
      generalize (m.run c).run.run k = r2
      match r2 with
      | .err p k => rfl
      | .ok (.error e, _) _ => rfl
      | .ok (.ok (), c') k' =>
        show outOf (((wops wpost >>= fun post => pure ⟨pre, some (.ok ()), post⟩ : T Empty Core SerOut).run c').run.run k') = _
        rw [T.run_bind, tree_run_bind]
        dsimp only
        generalize ((wops wpost).run c').run.run k' = r3
        match r3 with
        | .err p k => rfl
        | .ok (.error e, _) _ => exact nomatch e
        | .ok (.ok post, c) k => rfl

/-- Everything which is visible from outside, except for the error which is returned by `serialize_value` -/
def hide (x : Except WPanic SerOut × Sink) : Except WPanic (List (Except WErr WOut) × Option Bool × List (Except WErr WOut)) × Sink :=
  (x.1.map fun t => (t.pre, t.ser.map fun r => match r with | .ok _ => true | .error _ => false, t.post), x.2)

theorem execProg_alike (h : Alike m m') : hide (execProg N wst sink (progOps wpre m wpost)) = hide (execProg N wst sink (progOps wpre m' wpost)) := by
  rw [execProg_eq, execProg_eq]
  generalize ((wops wpre).run (Core.new wst)).run.run (BufSink.new N sink) = r1
  match r1 with
  | .err p k => rfl
  | .ok (.error e, _) _ => exact nomatch e
  | .ok (.ok pre, c) k =>
    dsimp only
    unfold restProg
    split
    · rfl
    · have := (h c).run k
      revert this
      generalize (m.run c).run.run k = r2
      generalize (m'.run c).run.run k = r2'
      intro this
      match r2, r2', this with
      | .err p k, .err _ _, rfl => rfl
      | .ok (.error e, _) _, .ok (.error e', _) _, this =>
        injection this with h1 h2
        injection h1 with _ h1
        subst h1 h2
        rfl
      | .ok (.ok (), _) _, .ok (.ok (), _) _, this =>
        injection this with h1 h2
        injection h1 with _ h1
        subst h1 h2
        rfl
      | .ok (.ok (), _) _, .ok (.error _, _) _, this =>
        injection this with h1 h2
        injection h1 with h1 _
        cases h1
      | .ok (.error _, _) _, .ok (.ok (), _) _, this =>
        injection this with h1 h2
        injection h1 with h1 _
        cases h1

theorem execProg_never (h : Never m) {t : SerOut} (ht : (execProg N wst sink (progOps wpre m wpost)).1 = .ok t) : t.ser ≠ some (.ok ()) := by
  rw [execProg_eq] at ht
  revert ht
  generalize ((wops wpre).run (Core.new wst)).run.run (BufSink.new N sink) = r1
  match r1 with
  | .err p k => rintro ⟨⟩
  | .ok (.error e, _) _ => exact nomatch e
  | .ok (.ok pre, c) k =>
    dsimp only
    unfold restProg
    split
    · rintro ⟨⟩ ⟨⟩
    · have := fun c' k' => (h c).run k (c := c') (k' := k')
      revert this
      generalize (m.run c).run.run k = r2
      intro this
      match r2, this with
      | .err p k, _ => rintro ⟨⟩
      | .ok (.error e, _) _, _ => rintro ⟨⟩ ⟨⟩
      | .ok (.ok (), c') k', this => exact absurd rfl (this c' k')

/-- the first part of the program decides -/
theorem execProg_split (N : Nat) (wst : WSettings) (sink : Sink) (wpre : List WOp) (m : S Unit) (wpost : List WOp) :
    (∃ p, (execProg N wst sink (progOps wpre m [])).1 = .error p ∧ execProg N wst sink (progOps wpre m wpost) = execProg N wst sink (progOps wpre m [])) ∨
    (∃ t, (execProg N wst sink (progOps wpre m [])).1 = .ok t ∧ t.ser ≠ some (.ok ()) ∧ execProg N wst sink (progOps wpre m wpost) = execProg N wst sink (progOps wpre m [])) ∨
    ∃ t, (execProg N wst sink (progOps wpre m [])).1 = .ok t ∧ t.ser = some (.ok ()) ∧ ∀ t', (execProg N wst sink (progOps wpre m wpost)).1 = .ok t' → t'.ser = some (.ok ()) := by
  rw [execProg_eq, execProg_eq]
  generalize ((wops wpre).run (Core.new wst)).run.run (BufSink.new N sink) = r1
  match r1 with
  | .err p k => exact .inl ⟨p, rfl, rfl⟩
  | .ok (.error e, _) _ => exact nomatch e
  | .ok (.ok pre, c) k =>
    dsimp only
    unfold restProg
    split
    · exact .inr (.inl ⟨_, rfl, nofun, rfl⟩)
    · generalize (m.run c).run.run k = r2
      match r2 with
      | .err p k => exact .inl ⟨p, rfl, rfl⟩
      | .ok (.error e, _) _ => exact .inr (.inl ⟨_, rfl, nofun, rfl⟩)
      | .ok (.ok (), c') k' =>
        refine .inr (.inr ⟨_, rfl, rfl, ?_⟩)
        dsimp only
        generalize ((wops wpost).run c').run.run k' = r3
        match r3 with
        | .err p k => rintro _ ⟨⟩
        | .ok (.error e, _) _ => exact nomatch e
        | .ok (.ok post, c) k => rintro _ ⟨⟩; rfl

theorem execProg_cut (h : Cut m m') {p : WPanic} (hp : (execProg N wst sink (progOps wpre m [])).1 = .error p) : (execProg N wst sink (progOps wpre m' [])).1 = .error p := by
  rw [execProg_eq] at hp ⊢
  revert hp
  generalize ((wops wpre).run (Core.new wst)).run.run (BufSink.new N sink) = r1
  match r1 with
  | .err p k => exact id
  | .ok (.error e, _) _ => exact nomatch e
  | .ok (.ok pre, c) k =>
    dsimp only
    unfold restProg
    split
    · exact id
    · have := (h c).run k
      revert this
      generalize (m.run c).run.run k = r2
      intro this
      match r2, this with
      | .err p k, this =>
        dsimp only at this
        rw [this]
        exact id
      | .ok (.error e, _) _, _ => rintro ⟨⟩
      | .ok (.ok (), c') k', _ => rintro ⟨⟩

theorem execSer_eq {v : SVal} : execSer N wst sink wpre v wpost = execProg N wst sink (progOps wpre (serialize v) wpost) := rfl

/-! ## If the underlying `Write` does not fail -/

theorem flushed_mono (t : Tree β) : t.flushed false = true → t.flushed true = true := by
  induction t with
  | ret => exact fun _ => rfl
  | panic => exact fun _ => rfl
  | emit bs k ih =>
    intro h
    rw [Tree.flushed] at h ⊢
    cases bs with
    | nil => exact ih _ h
    | cons => exact h
  | flush k ih => exact fun h => h

theorem run_reliable (t : Tree β) {k : BufSink} (hk : k.Good) (hr : k.sink.Reliable) :
    resOf (t.run.run k) = t.ideal.1 ∧ (stateOf (t.run.run k)).out = k.out ++ t.ideal.2 ∧ (t.flushed (k.pos == 0) = true → (stateOf (t.run.run k)).pos = 0) := by
  induction t generalizing k with
  | ret b => exact ⟨rfl, by simp [Tree.ideal, Tree.run, stateOf], fun h => show k.pos = 0 by simpa [Tree.flushed] using h⟩
  | panic p => exact ⟨rfl, by simp [Tree.ideal, Tree.run, stateOf, M.fail], fun h => show k.pos = 0 by simpa [Tree.flushed] using h⟩
  | emit bs f ih =>
    rw [Tree.run, Tree.ideal]
    dsimp only
    rcases writeBytes_spec (bytes := bs) hk with ⟨k', e1, e2, e3, e4, e5, e6⟩ | ⟨e, k', e1, hio, e2, e3⟩
    · rw [e1]
      dsimp only
      obtain ⟨h1, h3, h5⟩ := ih (.ok ()) e2 (e5 hr)
      refine ⟨h1, by rw [h3, e4]; simp, fun hfl => h5 ?_⟩
      rw [Tree.flushed] at hfl
      by_cases hb : bs = []
      · subst hb; rw [e6 rfl]; simpa using hfl
      · have : bs.isEmpty = false := by cases bs; exact absurd rfl hb; rfl
        rw [this, Bool.and_false] at hfl
        by_cases hp : (k'.pos == 0) = true
        · rw [hp]
          exact flushed_mono _ hfl
        · rw [Bool.not_eq_true] at hp; rw [hp]; exact hfl
    · exact absurd hr e2
  | flush f ih =>
    rw [Tree.run, Tree.ideal]
    dsimp only
    rcases flush_spec hk with ⟨k', e1, e2, e3, e4, e5, e6⟩ | ⟨e, k', e1, hio, e2, e3⟩
    · rw [e1]
      dsimp only
      obtain ⟨h1, h3, h5⟩ := ih (.ok ()) e2 (e6 hr)
      refine ⟨h1, by rw [h3, e4], fun hfl => h5 ?_⟩
      rw [e5]; exact hfl
    · exact absurd hr e2

section
variable {r1 : List (Except WErr WOut)} {b1 b2 : Bytes} {c1 c2 : Core}

/-- the program, if `serialize_value` is successful -/
theorem progOps_ideal (wpost : List WOp) (h1 : Emits (wops wpre) (Core.new wst) b1 r1 c1) (hr : r1.any Transfer.callFailed = false) (h2 : Emits m c1 b2 () c2) :
    ((progOps wpre m wpost).run (Core.new wst)).ideal = (match ((wops wpost).run c2).ideal with
      | (.ok (.ok r3, c3), b3) => (.ok (.ok ⟨r1, some (.ok ()), r3⟩, c3), b1 ++ (b2 ++ b3))
      | (.ok (.error e, _), _) => nomatch e
      | (.error p, b3) => (.error p, b1 ++ (b2 ++ b3))) ∧
    ∀ b, (∀ b, ((wops wpost).run c2).flushed b = true) → ((progOps wpre m wpost).run (Core.new wst)).flushed b = true := by
  unfold Emits at h1 h2
  have h3 : ((m.run c1).bind fun (r, c') => (.ret (.ok r, c') : Tree (Except Empty (Except SerErr Unit) × Core))).ideal = (.ok (.ok (.ok ()), c2), b2) := by
    rw [ideal_bind, h2]
    simp [Tree.ideal]
  constructor
  · unfold progOps
    rw [T.run_bind, ideal_bind, h1]
    dsimp only
    rw [hr, if_neg (by exact Bool.false_ne_true), T.run_bind, ideal_bind, h3]
    dsimp only
    rw [T.run_bind, ideal_bind]
    rcases ((wops wpost).run c2).ideal with ⟨p | ⟨e | r3, c3⟩, b3⟩
    · rfl
    · nomatch e
    · show (_, b1 ++ (b2 ++ (b3 ++ []))) = _
      rw [List.append_nil]
      rfl
  · intro b hb
    unfold progOps
    rw [T.run_bind, flushed_bind, h1]
    dsimp only
    rw [hr, if_neg (by exact Bool.false_ne_true), T.run_bind, flushed_bind, h3]
    dsimp only
    rw [T.run_bind, flushed_bind]
    split
    · rename_i x hx
      rcases x with ⟨e | r3, c3⟩
      · nomatch e
      · exact hb _
    · exact hb _

/-- the program, if `serialize_value` fails -/
theorem progOps_fails (wpost : List WOp) {e : SerErr} (h1 : Emits (wops wpre) (Core.new wst) b1 r1 c1) (hr : r1.any Transfer.callFailed = false) (h2 : Errs m c1 b2 e c2) :
    ((progOps wpre m wpost).run (Core.new wst)).ideal = (.ok (.ok ⟨r1, some (.error e), []⟩, c2), b1 ++ b2) := by
  unfold Emits at h1
  unfold Errs at h2
  have h3 : ((m.run c1).bind fun (r, c') => (.ret (.ok r, c') : Tree (Except Empty (Except SerErr Unit) × Core))).ideal = (.ok (.ok (.error e), c2), b2) := by
    rw [ideal_bind, h2]
    simp [Tree.ideal]
  unfold progOps
  rw [T.run_bind, ideal_bind, h1]
  dsimp only
  rw [hr, if_neg (by exact Bool.false_ne_true), T.run_bind, ideal_bind, h3]
  dsimp only
  show (_, b1 ++ (b2 ++ [])) = _
  rw [List.append_nil]
  rfl

/-- the program, if `serialize_value` panics -/
theorem progOps_panics (wpost : List WOp) {p : WPanic} (h1 : Emits (wops wpre) (Core.new wst) b1 r1 c1) (hr : r1.any Transfer.callFailed = false) (h2 : Panics m c1 b2 p) :
    ((progOps wpre m wpost).run (Core.new wst)).ideal = (.error p, b1 ++ b2) := by
  unfold Emits at h1
  unfold Panics at h2
  unfold progOps
  rw [T.run_bind, ideal_bind, h1]
  dsimp only
  rw [hr, if_neg (by exact Bool.false_ne_true), T.run_bind, ideal_bind, ideal_bind, h2]

end

/-- the program, if the underlying `Write` does not fail -/
theorem execProg_ideal {x : T Empty Core SerOut} (hN : 0 < N) (hrel : sink.Reliable) :
    (match (x.run (Core.new wst)).ideal.1 with
      | .ok (.ok t, _) => (execProg N wst sink x).1 = .ok t
      | .ok (.error e, _) => nomatch e
      | .error p => (execProg N wst sink x).1 = .error p) ∧
    (execProg N wst sink x).2.received <+: sink.received ++ (x.run (Core.new wst)).ideal.2 ∧
    ((x.run (Core.new wst)).flushed true = true → (execProg N wst sink x).2.received = sink.received ++ (x.run (Core.new wst)).ideal.2) := by
  obtain ⟨h1, h2, h3⟩ := run_reliable (x.run (Core.new wst)) (new_good (s := sink) hN) hrel
  rw [new_out] at h2
  rw [execProg_out]
  have h4 : (BufSink.new N sink).pos = 0 := rfl
  rw [h4] at h3
  generalize ((x.run (Core.new wst)).run.run (BufSink.new N sink)) = y at h1 h2 h3 ⊢
  have hpre : (stateOf y).sink.received <+: sink.received ++ (x.run (Core.new wst)).ideal.2 := by rw [← h2]; exact List.prefix_append ..
  have heq : (stateOf y).pos = 0 → (stateOf y).sink.received = sink.received ++ (x.run (Core.new wst)).ideal.2 := by
    intro h
    rw [← h2, BufSink.out, h]
    simp
  match y, h1, hpre, heq, h3 with
  | .ok (.ok t, c) kk, h1, hpre, heq, h3 =>
    rw [← h1]
    exact ⟨rfl, hpre, fun h => heq (h3 h)⟩
  | .ok (.error e, _) _, _, _, _, _ => exact nomatch e
  | .err p kk, h1, hpre, heq, h3 =>
    rw [← h1]
    exact ⟨rfl, hpre, fun h => heq (h3 h)⟩

end Verif.Ser
