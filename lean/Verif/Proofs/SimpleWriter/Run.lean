import Verif.Proofs.SimpleWriter.Sticky
import Verif.Proofs.Ser.Exec
/-!
# Execution of the Simple writer API with a `JsonStreamWriter`
-/

namespace Verif.SimpleWriter
open Writer Json SimpleSpec
open WSpec (Written Step Rejected strLit)

variable {α β : Type}

/-! ## Trees of calls as programs -/

theorem tree_assoc {α β γ : Type} (t : Tree α) (f : α → Tree β) (g : β → Tree γ) : (t.bind f).bind g = t.bind fun a => (f a).bind g := by
  induction t with
  | ret a => rfl
  | panic p => rfl
  | emit bs k ih => simp only [Tree.bind]; congr; funext r; exact ih r
  | flush k ih => simp only [Tree.bind]; congr; funext r; exact ih r

theorem exec_bind (t : Calls WCall WRes α) (f : α → Calls WCall WRes β) (c : Core) : (exec (t.bind f)).run c = (exec t >>= fun a => exec (f a)).run c := by
  induction t generalizing c with
  | ret a => rfl
  | panic p => rfl
  | call w k ih =>
    show (catchErr (perform w) >>= fun r => exec ((k r).bind f)).run c = ((catchErr (perform w) >>= fun r => exec (k r)) >>= fun a => exec (f a)).run c
    rw [T.run_bind, T.run_bind, T.run_bind, tree_assoc]
    congr
    funext ⟨r, c'⟩
    cases r with
    | error e => nomatch e
    | ok r => exact ih r c'

/-- success or error `r`; afterwards the stored error is `s'` -/
def XE (m : X α) (s : Option SErr) (c : Core) (bs : Bytes) (r : Except SErr α) (s' : Option SErr) (c' : Core) : Prop := Emits (exec (m.run s)) c bs (r, s') c'
def XP (m : X α) (s : Option SErr) (c : Core) (bs : Bytes) (p : WPanic) : Prop := Panics (exec (m.run s)) c bs p

section
variable {m : X α} {f : α → X β} {s s1 s2 : Option SErr} {c c1 c2 : Core} {bs bs' : Bytes} {a : α} {e : SErr} {p : WPanic} {r : Except SErr α} {r' : Except SErr β}

theorem emits_bind {t : Calls WCall WRes α} {g : α → Calls WCall WRes β} {x : α} {y : β} (h : Emits (exec t) c bs x c1) (hf : Emits (exec (g x)) c1 bs' y c2) :
    Emits (exec (t.bind g)) c (bs ++ bs') y c2 := by
  unfold Emits
  rw [exec_bind]
  exact h.bind hf

theorem XE.bind (h : XE m s c bs (.ok a) s1 c1) (hf : XE (f a) s1 c1 bs' r' s2 c2) : XE (m >>= f) s c (bs ++ bs') r' s2 c2 := by
  unfold XE
  rw [CT.run_bind]
  exact emits_bind h hf

theorem XE.bind_err (h : XE m s c bs (.error e) s1 c1) : XE (m >>= f) s c bs (.error e) s1 c1 := by
  unfold XE
  rw [CT.run_bind]
  exact (emits_bind (bs' := []) h (by exact emits_pure)).cast (List.append_nil _)

theorem XE.bind_panic (h : XE m s c bs (.ok a) s1 c1) (hf : XP (f a) s1 c1 bs' p) : XP (m >>= f) s c (bs ++ bs') p := by
  unfold XP Panics
  rw [CT.run_bind, exec_bind]
  exact Emits.bind_panic h hf

theorem XP.bind (h : XP m s c bs p) : XP (m >>= f) s c bs p := by
  unfold XP Panics
  rw [CT.run_bind, exec_bind]
  exact Panics.bind h

theorem XE.attempt (h : XE m s c bs r s1 c1) : XE (CT.attempt m) s c bs (.ok r) s1 c1 :=
  (emits_bind (bs' := []) h (by exact emits_pure)).cast (List.append_nil _)

theorem XP.attempt (h : XP m s c bs p) : XP (CT.attempt m) s c bs p := by
  unfold XP Panics
  show ((exec ((m.run s).bind _)).run c).ideal = _
  rw [exec_bind]
  exact Panics.bind h

theorem XE.stop (h : m.run s = .ret (r, s1)) : XE m s c [] r s1 c := by
  unfold XE
  rw [h]
  exact emits_pure
end

theorem catchErr_emits {ε : Type} {m : T ε Core α} {c c' : Core} {bs : Bytes} {a : α} (h : Emits m c bs a c') : Emits (catchErr m) c bs (.ok a) c' := by
  unfold Emits at *
  show ((m.run c).bind _).ideal = _
  rw [ideal_bind, h]
  dsimp only
  rw [Tree.ideal, List.append_nil]

theorem catchErr_errs {ε : Type} {m : T ε Core α} {c c' : Core} {bs : Bytes} {e : ε} (h : Errs m c bs e c') : Emits (catchErr m) c bs (.error e) c' := by
  unfold Emits Errs at *
  show ((m.run c).bind _).ideal = _
  rw [ideal_bind, h]
  dsimp only
  rw [Tree.ideal, List.append_nil]

theorem catchErr_panics {ε : Type} {m : T ε Core α} {c : Core} {bs : Bytes} {p : WPanic} (h : Panics m c bs p) : Panics (catchErr m) c bs p := by
  unfold Panics at *
  show ((m.run c).bind _).ideal = _
  rw [ideal_bind, h]

theorem onWriter_emits {m : W α} {c c' : Core} {bs : Bytes} {a : α} (h : Emits m c bs a c') : Emits (onWriter m) c bs a c' := by
  unfold Emits at *
  show ((m.run c).bind _).ideal = _
  rw [ideal_bind, h]
  dsimp only
  rw [Tree.ideal, List.append_nil]

theorem onWriter_errs {m : W α} {c c' : Core} {bs : Bytes} {e : WErr} (h : Errs m c bs e c') : Errs (onWriter m) c bs (.writer e) c' := by
  unfold Errs at *
  show ((m.run c).bind _).ideal = _
  rw [ideal_bind, h]
  dsimp only
  rw [Tree.ideal, List.append_nil]

theorem onWriter_panics {m : W α} {c : Core} {bs : Bytes} {p : WPanic} (h : Panics m c bs p) : Panics (onWriter m) c bs p := by
  unfold Panics at *
  show ((m.run c).bind _).ideal = _
  rw [ideal_bind, h]

theorem onSerializer_emits {m : Ser.S α} {c c' : Core} {bs : Bytes} {a : α} (h : Emits m c bs a c') : Emits (onSerializer m) c bs a c' := by
  unfold Emits at *
  show ((m.run c).bind _).ideal = _
  rw [ideal_bind, h]
  dsimp only
  rw [Tree.ideal, List.append_nil]

theorem onSerializer_errs {m : Ser.S α} {c c' : Core} {bs : Bytes} {e : Ser.SerErr} (h : Errs m c bs e c') : Errs (onSerializer m) c bs (.serializer e) c' := by
  unfold Errs at *
  show ((m.run c).bind _).ideal = _
  rw [ideal_bind, h]
  dsimp only
  rw [Tree.ideal, List.append_nil]

theorem onSerializer_panics {m : Ser.S α} {c : Core} {bs : Bytes} {p : WPanic} (h : Panics m c bs p) : Panics (onSerializer m) c bs p := by
  unfold Panics at *
  show ((m.run c).bind _).ideal = _
  rw [ideal_bind, h]

/-! ## Calls -/

section
variable {w : WCall} {c c' : Core} {bs : Bytes} {n : Nat} {e : SErr} {p : WPanic}

theorem useDelegate_emits (h : Emits (perform w) c bs n c') : XE (useDelegate w) none c bs (.ok n) none c' := by
  unfold XE
  rw [useDelegate_none]
  exact (catchErr_emits h).last (by exact emits_pure)

theorem useDelegate_errs (h : Errs (perform w) c bs e c') : XE (useDelegate w) none c bs (.error e) (some e) c' := by
  unfold XE
  rw [useDelegate_none]
  exact (catchErr_errs h).last (by exact emits_pure)

theorem call_emits (h : Emits (perform w) c bs n c') : XE (call w) none c bs (.ok ()) none c' := by
  unfold XE
  rw [call_none]
  exact (catchErr_emits h).last (by exact emits_pure)

theorem call_errs (h : Errs (perform w) c bs e c') : XE (call w) none c bs (.error e) (some e) c' := by
  unfold XE
  rw [call_none]
  exact (catchErr_errs h).last (by exact emits_pure)

theorem call_panics (h : Panics (perform w) c bs p) : XP (call w) none c bs p := by
  unfold XP
  rw [call_none]
  exact (catchErr_panics h).bind
end

theorem unit_emits {m : W Unit} {c c' : Core} {bs : Bytes} (h : Emits m c bs () c') : Emits (unit m) c bs 0 c' := (onWriter_emits h).last emits_pure
theorem unit_errs {m : W Unit} {c c' : Core} {bs : Bytes} {e : WErr} (h : Errs m c bs e c') : Errs (unit m) c bs (.writer e) c' := (onWriter_errs h).bind
theorem unit_panics {m : W Unit} {c : Core} {bs : Bytes} {p : WPanic} (h : Panics m c bs p) : Panics (unit m) c bs p := (onWriter_panics h).bind

/-! ## Outcomes -/

variable {wst : WSettings} {c : Core} {w : Written}

/-- The outcome of `m`, if the underlying `Write` does not fail: the writer failed (and the error is stored), or no error is stored and the result and what has
been written satisfy `P`, or a panic, which is only possible if `Q` -/
inductive Ends (wst : WSettings) (m : X α) (c : Core) (w : Written) (P : Except SErr α → Written → Prop) (Q : Prop) : Prop
  | failed (bs : Bytes) (r : Except SErr α) (e : SErr) (c' : Core) : XE m none c bs r (some e) c' → Ends wst m c w P Q
  | done (bs : Bytes) (r : Except SErr α) (c' : Core) (w' : Written) : XE m none c bs r none c' → w'.bytes wst = w.bytes wst ++ bs → WInv wst c' w' → WOk wst w' → P r w' → Ends wst m c w P Q
  | panics (bs : Bytes) (p : WPanic) : Q → XP m none c bs p → Ends wst m c w P Q

section
variable {m : X α} {P P' : Except SErr α → Written → Prop} {Q Q' : Prop}

theorem Ends.mono (h : Ends wst m c w P Q) (hp : ∀ r w', P r w' → P' r w') (hq : Q → Q') : Ends wst m c w P' Q' := by
  cases h with
  | failed bs r e c' h => exact .failed bs r e c' h
  | done bs r c' w' h1 h2 h3 h4 h5 => exact .done bs r c' w' h1 h2 h3 h4 (hp _ _ h5)
  | panics bs p h1 h2 => exact .panics bs p (hq h1) h2

theorem Ends.bind {f : α → X β} {P' : Except SErr β → Written → Prop} (h : Ends wst m c w P Q) (hs : ∀ a, Stops (f a)) (hq : Q → Q')
    (he : ∀ e w', P (.error e) w' → P' (.error e) w')
    (hk : ∀ a c' w', WInv wst c' w' → WOk wst w' → P (.ok a) w' → Ends wst (f a) c' w' P' Q') : Ends wst (m >>= f) c w P' Q' := by
  cases h with
  | failed bs r e c' h =>
    cases r with
    | error e' => exact .failed bs _ e c' h.bind_err
    | ok a =>
      obtain ⟨r', hr⟩ := hs a e
      exact .failed _ r' e c' (h.bind (XE.stop hr))
  | done bs r c' w' h1 h2 h3 h4 h5 =>
    cases r with
    | error e' => exact .done bs _ c' w' h1.bind_err h2 h3 h4 (he _ _ h5)
    | ok a =>
      cases hk a c' w' h3 h4 h5 with
      | failed bs' r' e c'' g => exact .failed _ r' e c'' (h1.bind g)
      | done bs' r' c'' w'' g1 g2 g3 g4 g5 => exact .done _ r' c'' w'' (h1.bind g1) (by rw [g2, h2, List.append_assoc]) g3 g4 g5
      | panics bs' p g1 g2 => exact .panics _ p g1 (h1.bind_panic g2)
  | panics bs p h1 h2 => exact .panics bs p (hq h1) h2.bind

theorem Ends.attempt {f : Except SErr α → X β} {P' : Except SErr β → Written → Prop} (h : Ends wst m c w P Q) (hs : ∀ r, Stops (f r)) (hq : Q → Q')
    (hk : ∀ r c' w', WInv wst c' w' → WOk wst w' → P r w' → Ends wst (f r) c' w' P' Q') : Ends wst (CT.attempt m >>= f) c w P' Q' := by
  have h' : Ends wst (CT.attempt m) c w (fun r w' => ∃ r0, r = .ok r0 ∧ P r0 w') Q := by
    cases h with
    | failed bs r e c' h => exact .failed bs _ e c' h.attempt
    | done bs r c' w' h1 h2 h3 h4 h5 => exact .done bs _ c' w' h1.attempt h2 h3 h4 ⟨r, rfl, h5⟩
    | panics bs p h1 h2 => exact .panics bs p h1 h2.attempt
  refine h'.bind hs hq ?_ ?_
  · rintro e w' ⟨r0, h, _⟩; cases h
  · rintro r c' w' hi hok ⟨r0, h, hp⟩
    cases h
    exact hk r c' w' hi hok hp

theorem ends_ofExcept (r : Except SErr α) (hi : WInv wst c w) (hok : WOk wst w) (hp : P r w) : Ends wst (CT.ofExcept r : X α) c w P Q :=
  .done [] r c w (XE.stop (by cases r <;> rfl)) (List.append_nil _).symm hi hok hp

theorem ends_pure (a : α) (hi : WInv wst c w) (hok : WOk wst w) (hp : P (.ok a) w) : Ends wst (pure a : X α) c w P Q :=
  .done [] _ c w (XE.stop rfl) (List.append_nil _).symm hi hok hp
end

theorem inv_emits {ε σ : Type} {m : T ε σ Unit} {x b : β} {s s' : σ} {bs : Bytes} (h : Emits (m >>= fun _ => pure b) s bs x s') : Emits m s bs () s' := by
  rcases outcome m s with ⟨bs', a, s'', g⟩ | ⟨bs', e, s'', g⟩ | ⟨bs', p, g⟩
  · have := (g.last (emits_pure (a := b))).unique h
    obtain ⟨rfl, _, rfl⟩ := this
    exact g
  · have := g.bind (f := fun _ => (pure b : T ε σ β))
    unfold Errs at this; unfold Emits at h; rw [this] at h; cases h
  · have := g.bind (f := fun _ => (pure b : T ε σ β))
    unfold Panics at this; unfold Emits at h; rw [this] at h; cases h

theorem inv_errs {ε σ : Type} {m : T ε σ Unit} {b : β} {s s' : σ} {bs : Bytes} {e : ε} (h : Errs (m >>= fun _ => pure b) s bs e s') : Errs m s bs e s' := by
  rcases outcome m s with ⟨bs', a, s'', g⟩ | ⟨bs', e, s'', g⟩ | ⟨bs', p, g⟩
  · have := g.last (f := fun _ => (pure b : T ε σ β)) emits_pure
    unfold Errs at h; unfold Emits at this; rw [this] at h; cases h
  · have := g.bind (f := fun _ => (pure b : T ε σ β))
    unfold Errs at *; rw [this] at h; rw [g]; cases h; rfl
  · have := g.bind (f := fun _ => (pure b : T ε σ β))
    unfold Panics at this; unfold Errs at h; rw [this] at h; cases h

theorem inv_panics {ε σ : Type} {m : T ε σ Unit} {b : β} {s : σ} {bs : Bytes} {p : WPanic} (h : Panics (m >>= fun _ => pure b) s bs p) : Panics m s bs p := by
  rcases outcome m s with ⟨bs', a, s'', g⟩ | ⟨bs', e, s'', g⟩ | ⟨bs', p, g⟩
  · have := g.last (f := fun _ => (pure b : T ε σ β)) emits_pure
    unfold Panics at h; unfold Emits at this; rw [this] at h; cases h
  · have := g.bind (f := fun _ => (pure b : T ε σ β))
    unfold Errs at this; unfold Panics at h; rw [this] at h; cases h
  · have := g.bind (f := fun _ => (pure b : T ε σ β))
    unfold Panics at *; rw [this] at h; rw [g]; cases h; rfl

/-- a call which corresponds to a method of the writer -/
theorem call_ends {op : WOp} {m : W Unit} {wc : WCall} (hi : WInv wst c w) (hok : WOk wst w) (hop : OpOk op) (hp : perform wc = unit m) (hm : wop op = (m >>= fun _ => pure .unit)) :
    Ends wst (call wc) c w (fun r w' => r = .ok () ∧ ¬ Rejected op ∧ Step wst w op w') (¬ ∃ w', Step wst w op w') := by
  cases wop_outcome hi hok op hop with
  | done w' out bs c' h1 h2 h3 h4 h5 h6 =>
    rw [hm] at h2
    exact .done bs _ c' w' (call_emits (by rw [hp]; exact unit_emits (inv_emits h2))) h3 h4 (hok.step h1) ⟨rfl, h5, h1⟩
  | rejected h1 h2 =>
    rw [hm] at h2
    exact .failed _ _ _ _ (call_errs (by rw [hp]; exact unit_errs (inv_errs h2)))
  | panic u h1 h2 =>
    rw [hm] at h1
    exact .panics _ _ h2 (call_panics (by rw [hp]; exact unit_panics (inv_panics h1)))

end Verif.SimpleWriter
