import Verif.Proofs.Abs.Potential
import Verif.Proofs.Abs.Calls
import Verif.Proofs.Abs.Position
/-! # Sequences of calls without fatal errors -/

namespace Verif.Abs
open Reader Usage

variable {st : Settings} {inp : Bytes} {g : Prop} {m : Mode} {op : Op} {s s' : St} {ops : List Op} {rs : List (Except RErr Out)}

/-- the calls `ops` lead from `s` to `s'` with results `rs` -/
inductive Steps : List Op → St → List (Except RErr Out) → St → Prop
  | nil {s : St} : Steps [] s [] s
  | ok {op : Op} {ops : List Op} {o : Out} {s s1 s' : St} {rs : List (Except RErr Out)} : op ≠ .consumeTrailingWhitespace → (runOp op).run s = .ok o s1 → Steps ops s1 rs s' →
      Steps (op :: ops) s (.ok o :: rs) s'
  | err {op : Op} {ops : List Op} {e : RErr} {s s1 s' : St} {rs : List (Except RErr Out)} : op ≠ .consumeTrailingWhitespace → e.fatal = false → (runOp op).run s = .err e s1 →
      Steps ops s1 rs s' → Steps (op :: ops) s (.error e :: rs) s'

theorem runOps_cons_ok {o : Out} (hop : op ≠ .consumeTrailingWhitespace) (h : (runOp op).run s = .ok o s') : runOps (op :: ops) s = .ok o :: runOps ops s' := by
  rw [runOps, h]
  dsimp only
  rw [if_neg hop]

theorem runOps_cons_err {e : RErr} (hop : op ≠ .consumeTrailingWhitespace) (hf : e.fatal = false) (h : (runOp op).run s = .err e s') : runOps (op :: ops) s = .error e :: runOps ops s' := by
  rw [runOps, h]
  dsimp only
  rw [hf, decide_eq_false hop]
  rfl

theorem Steps.runOps (h : Steps ops s rs s') (tail : List Op) : runOps (ops ++ tail) s = rs ++ runOps tail s' := by
  induction h with
  | nil => rfl
  | ok hop h _ ih => rw [List.cons_append, runOps_cons_ok hop h, ih, List.cons_append]
  | err hop hf h _ ih => rw [List.cons_append, runOps_cons_err hop hf h, ih, List.cons_append]

theorem Steps.length (h : Steps ops s rs s') : rs.length = ops.length := by
  induction h with
  | nil => rfl
  | ok _ _ _ ih => simp [ih]
  | err _ _ _ _ ih => simp [ih]

/-- a call after some calls is made only if there were no fatal errors -/
theorem steps_of_length : ∀ (ops : List Op) {s : St} {op : Op} {tail : List Op}, ops.length < (Reader.runOps (ops ++ op :: tail) s).length → ∃ rs s', Steps ops s rs s' := by
  intro ops
  induction ops with
  | nil => intro s op tail _; exact ⟨[], s, .nil⟩
  | cons o ops ih =>
    intro s op tail h
    rw [List.cons_append, Reader.runOps] at h
    cases hr : (runOp o).run s with
    | ok x s1 =>
      rw [hr] at h
      dsimp only at h
      by_cases hop : o = .consumeTrailingWhitespace
      · rw [if_pos hop] at h
        simp at h
      · rw [if_neg hop] at h
        obtain ⟨rs, s', h'⟩ := ih (by simpa using h)
        exact ⟨_, _, .ok hop hr h'⟩
    | err e s1 =>
      rw [hr] at h
      dsimp only at h
      by_cases hf : (e.fatal || decide (o = .consumeTrailingWhitespace)) = true
      · rw [if_pos hf] at h
        simp at h
      · rw [if_neg hf] at h
        simp only [Bool.or_eq_true, decide_eq_true_eq, not_or] at hf
        obtain ⟨rs, s', h'⟩ := ih (by simpa using h)
        exact ⟨_, _, .err hf.2 (eq_false_of_ne_true hf.1) hr h'⟩

theorem steps_of_eq {pre : List Op} {tail : List Op} {r : Except RErr Out} {rt : List (Except RErr Out)} (h : Reader.runOps (pre ++ op :: tail) s = rs ++ r :: rt) (hl : rs.length = pre.length) :
    ∃ s', Steps pre s rs s' ∧ Reader.runOps (op :: tail) s' = r :: rt := by
  obtain ⟨rs', s', h'⟩ := steps_of_length pre (op := op) (tail := tail) (s := s) (by rw [h]; simp; omega)
  have h2 := h'.runOps (op :: tail)
  rw [h] at h2
  obtain ⟨rfl, h3⟩ := List.append_inj h2 (hl.trans h'.length.symm)
  exact ⟨s', h', h3.symm⟩

theorem Steps.append {ops' : List Op} {rs' : List (Except RErr Out)} {s'' : St} (h : Steps ops s rs s') (h' : Steps ops' s' rs' s'') : Steps (ops ++ ops') s (rs ++ rs') s'' := by
  induction h with
  | nil => exact h'
  | ok hop h _ ih => exact .ok hop h (ih h')
  | err hop hf h _ ih => exact .err hop hf h (ih h')

theorem steps_split {ops' : List Op} {rs' : List (Except RErr Out)} (h : Steps (ops ++ ops') s (rs ++ rs') s') (hl : rs.length = ops.length) : ∃ s1, Steps ops s rs s1 ∧ Steps ops' s1 rs' s' := by
  induction ops generalizing s rs with
  | nil =>
    cases rs with
    | nil => exact ⟨s, .nil, h⟩
    | cons _ _ => cases hl
  | cons op ops ih =>
    cases rs with
    | nil => cases hl
    | cons r rs =>
      cases h with
      | ok hop hr ht =>
        obtain ⟨s1, h1, h2⟩ := ih ht (by simpa using hl)
        exact ⟨s1, .ok hop hr h1, h2⟩
      | err hop hf hr ht =>
        obtain ⟨s1, h1, h2⟩ := ih ht (by simpa using hl)
        exact ⟨s1, .err hop hf hr h1, h2⟩

/-! ## Invariant -/

theorem Steps.inv (h : Steps ops s rs s') : ∀ {g : Prop} {m : Mode}, InvT st inp g m s → ∃ (m' : Mode) (g' : Prop), ((∀ t l, Except.error (.unsupportedNumberValue t l) ∉ rs) → g → g') ∧ InvT st inp g' m' s' := by
  induction h with
  | nil => intro g m h; exact ⟨m, g, fun _ h => h, h⟩
  | @ok op ops o s s1 s' rs hop hr _ ih =>
    intro g m h
    have hw := call_any (op := op) h
    unfold Wp at hw
    rw [hr] at hw
    obtain ⟨m', g', h1, h2⟩ := ih (hw.2 hop)
    exact ⟨m', g', fun hn => h1 fun t l hm => hn t l (List.mem_cons_of_mem _ hm), h2⟩
  | @err op ops e s s1 s' rs hop hf hr _ ih =>
    intro g m h
    have hw := call_any (op := op) h
    unfold Wp at hw
    rw [hr] at hw
    cases hw with
    | src => cases hf
    | panic => cases hf
    | fatal h => rw [hf] at h; cases h
    | nonfatal m2 h hm =>
      obtain ⟨m', g', h1, h2⟩ := ih (hm hop)
      exact ⟨m', g', fun hn hg => h1 (fun t l hm => hn t l (List.mem_cons_of_mem _ hm)) ⟨hg, fun t l he => hn t l (he ▸ List.mem_cons_self ..)⟩, h2⟩

theorem tokBytes_length (p : Peeked) : (tokBytes p).length = peekedLength p := by cases p <;> rfl

theorem posOf_byte (bs : Bytes) : (posOf bs).byte = bs.length := by rw [posOf_eq]

/-- the bytes in front of the position and the peeked token have been consumed -/
theorem InvT.rest (h : InvT st inp g m s) (hg : g) : s.src.rest = inp.drop (s.bytePos + pl s.peeked) ∧ s.bytePos + pl s.peeked ≤ inp.length := by
  have key : ∀ t : St, Inv st inp g m t → t.src.rest = inp.drop (t.bytePos + pl t.peeked) ∧ t.bytePos + pl t.peeked ≤ inp.length := by
    intro t h
    have drop : ∀ (a b : Bytes) (n : Nat), inp = a ++ b → n = a.length → b = inp.drop n ∧ n ≤ inp.length := by
      rintro a b n rfl rfl
      simp
    cases h with
    | @«at» c _ h =>
      cases h with
      | @n pos r h =>
        obtain ⟨hc, ⟨hi, rfl⟩ | ⟨rfl, hd, t, ht, hi, rfl⟩⟩ := h.good hg
        · exact drop c.bytes r _ hi (posOf_byte _)
        · exact drop inp [] _ (by simp) (posOf_byte _)
      | @p p l pos r h =>
        obtain ⟨hc, hi, rfl⟩ := h.good hg
        refine drop (c.bytes ++ (l.bytes ++ tokBytes p)) r _ (by rw [hi]; simp) ?_
        show (posOf (c.bytes ++ l.bytes)).byte + peekedLength p = _
        rw [posOf_byte]
        simp [tokBytes_length, Nat.add_assoc]
    | @active c l pos r x y h1 h2 h3 h4 =>
      obtain ⟨hc, hl, hi, rfl, rfl, _⟩ := h4 hg
      refine drop (c.bytes ++ (l.bytes ++ 0x22 :: y)) r _ (by rw [hi]; simp) ?_
      exact posOf_byte _
  exact key (noTerm s) h

/-! ## Positions -/

theorem runOp_pos_ok {o : Out} (h : (runOp op).run s = .ok o s') : s.bytePos ≤ s'.bytePos := by
  have := loc_runOp op s
  unfold LocAt at this
  rw [h] at this
  obtain ⟨q, _, h2, _⟩ := this
  exact h2

theorem runOp_pos_err {e : RErr} (h : (runOp op).run s = .err e s') (hf : e.fatal = false) : s.bytePos ≤ s'.bytePos := by
  have := loc_runOp op s
  unfold LocAt at this
  rw [h] at this
  rcases this with rfl | ⟨q, _, h2, _⟩
  · cases hf
  · exact h2.pos hf

theorem runOp_depth {e : RErr} (h : (runOp op).run s = .err e s') : DepthErr e s' := by
  have := loc_runOp op s
  unfold LocAt at this
  rw [h] at this
  rcases this with rfl | ⟨q, _, h2, _⟩
  · exact nofun
  · exact h2.depth

/-! ## The part of the input which matters -/

theorem Steps.local (h : Steps ops s rs s') : ∃ q, Ate q s s' ∧ ∀ r t, Agree q s r t → Except.error .outOfFuel ∉ Reader.runOps ops (cutSt s r t) →
    Steps ops (cutSt s r t) rs (cutSt s' (r.drop q) t) := by
  induction h with
  | nil => exact ⟨0, .zero rfl rfl, fun r t _ _ => .nil⟩
  | @ok op ops o s s1 s' rs hop hr _ ih =>
    have hl := loc_runOp op s
    unfold LocAt at hl
    rw [hr] at hl
    obtain ⟨q1, h1, _, h2⟩ := hl
    obtain ⟨q2, h3, h4⟩ := ih
    refine ⟨q1 + q2, h1.trans h3, fun r t ha hf => ?_⟩
    rcases h2 r t ha.left with h5 | ⟨s0, h5⟩
    · have h5 : (runOp op).run (cutSt s r t) = .ok o (cutSt s1 (r.drop q1) t) := h5
      rw [runOps_cons_ok hop h5] at hf
      have := h4 (r.drop q1) t (ha.right h1) fun h => hf (List.mem_cons_of_mem _ h)
      rw [List.drop_drop] at this
      exact .ok hop h5 this
    · refine absurd ?_ hf
      have h5 : (runOp op).run (cutSt s r t) = .err .outOfFuel s0 := h5
      rw [Reader.runOps, h5]
      exact List.mem_cons_self ..
  | @err op ops e s s1 s' rs hop he hr _ ih =>
    have hl := loc_runOp op s
    unfold LocAt at hl
    rw [hr] at hl
    rcases hl with rfl | ⟨q1, h1, _, h2⟩
    · cases he
    obtain ⟨q2, h3, h4⟩ := ih
    refine ⟨q1 + q2, h1.trans h3, fun r t ha hf => ?_⟩
    rcases h2 r t ha.left with h5 | ⟨s0, h5⟩
    · have h5 : (runOp op).run (cutSt s r t) = .err e (cutSt s1 (r.drop q1) t) := h5
      rw [runOps_cons_err hop he h5] at hf
      have := h4 (r.drop q1) t (ha.right h1) fun h => hf (List.mem_cons_of_mem _ h)
      rw [List.drop_drop] at this
      exact .err hop he h5 this
    · refine absurd ?_ hf
      have h5 : (runOp op).run (cutSt s r t) = .err .outOfFuel s0 := h5
      rw [Reader.runOps, h5]
      exact List.mem_cons_self ..

/-! ## The number of calls which read something -/

/-- number of successful calls which read something -/
def readCount : List Op → List (Except RErr Out) → Nat
  | op :: ops, .ok _ :: rs => (if reads op then 1 else 0) + readCount ops rs
  | _ :: ops, .error _ :: rs => readCount ops rs
  | _, _ => 0

theorem readCount_nil (ops : List Op) : readCount ops [] = 0 := by cases ops <;> rfl

theorem runOps_readCount : ∀ (ops : List Op) (s : St), readCount ops (Reader.runOps ops s) ≤ left s := by
  intro ops
  induction ops with
  | nil => intro s; exact Nat.zero_le _
  | cons op ops ih =>
    intro s
    rw [Reader.runOps]
    cases hr : (runOp op).run s with
    | ok o s' =>
      dsimp only [readCount]
      have h1 := (pot_runOp op).ok hr
      have h2 : readCount ops (if op = .consumeTrailingWhitespace then [] else Reader.runOps ops s') ≤ left s' := by
        split
        · rw [readCount_nil]; exact Nat.zero_le _
        · exact ih s'
      split
      · have := less_runOp ‹_› _ _ _ hr
        omega
      · omega
    | err e s' =>
      dsimp only [readCount]
      have h1 := (pot_runOp op).err hr
      split
      · rw [readCount_nil]; exact Nat.zero_le _
      · rename_i hf
        simp only [Bool.or_eq_true, not_or] at hf
        exact Nat.le_trans (ih s') (h1 (eq_false_of_ne_true hf.1))

end Verif.Abs
