import Verif.Proofs.Abs.Calls
import Verif.Proofs.Prog
/-! # States which are reached by calls, for an input which ends without error of the underlying reader -/

namespace Verif.AbsSrc

theorem keep_t {α : Type} {t : Option Nat} {m : M SrcErr AbsSrc α} (h : ∀ c a c', m.run c = .ok a c' → c'.term = c.term) :
    OpRel (fun _ => False) (fun _ => True) (fun a b : AbsSrc => a = b ∧ a.term = t) m m (fun _ a b => a = b ∧ a.term = t) := by
  rintro c _ ⟨rfl, ht⟩
  unfold RelAt
  cases hr : m.run c with
  | ok a c' => exact ⟨rfl, rfl, (h _ _ _ hr).trans ht⟩
  | err => exact .inr ⟨rfl, fun _ _ => trivial⟩

theorem peek_keep : ∀ c a c', peekByte.run c = .ok a c' → c'.term = c.term := by
  rintro ⟨r, t, acc⟩ a c' h
  cases r with
  | nil => cases t <;> cases h; rfl
  | cons => cases h; rfl

theorem skip_keep : ∀ c a c', skipPeekedByte.run c = .ok a c' → c'.term = c.term := by
  rintro ⟨r, t, acc⟩ a c' h
  cases r with
  | nil => cases h
  | cons => cases h; rfl

theorem consume_keep : ∀ c a c', vConsume.run c = .ok a c' → c'.term = c.term := by
  rintro ⟨r, t, acc⟩ a c' h
  cases r with
  | nil => cases h
  | cons => cases h; rfl

theorem getStr_keep : ∀ c a c', getStr.run c = .ok a c' → c'.term = c.term := by
  rintro ⟨r, t, acc⟩ a c' h
  unfold getStr at h
  dsimp only at h
  cases hu : Utf8.toStrUnchecked acc <;> rw [hu] at h <;> cases h
  rfl

theorem getStrPeek_keep : ∀ c a c', getStrPeek.run c = .ok a c' → c'.term = c.term := by
  rintro ⟨r, t, acc⟩ a c' h
  unfold getStrPeek at h
  dsimp only at h
  cases hu : Utf8.toStrUnchecked acc <;> rw [hu] at h <;> cases h
  rfl

/-- the end of the input does not change -/
def termSim (t : Option Nat) (settings : Settings) : Sim AbsSrc AbsSrc where
  rel _ a b := a = b ∧ a.term = t
  X _ := False
  fin _ _ := True
  finOf _ _ _ _ _ := trivial
  finHeld _ _ _ _ _ := trivial
  finMono _ _ := trivial
  set1 := settings
  set2 := settings
  weakenIdle _ _ h := h
  weakenValue _ _ _ h := h
  weakenHeld _ _ _ h := h
  peekByte := keep_t peek_keep
  peekByteHeld _ := keep_t peek_keep
  skipPeekedByte := keep_t skip_keep
  vNew _ := keep_t (by rintro _ _ _ ⟨⟩; rfl)
  vPeek := keep_t peek_keep
  vConsume := keep_t consume_keep
  vSkipPrevious := keep_t (by rintro _ _ _ ⟨⟩; rfl)
  vSkipFinal := keep_t (by rintro _ _ _ ⟨⟩; rfl)
  vPush bs := keep_t (by rintro _ _ _ ⟨⟩; rfl)
  vGetFinal _ := keep_t (by rintro _ _ _ ⟨⟩; rfl)
  vGet _ := keep_t (by rintro _ _ _ ⟨⟩; rfl)
  getString _ := keep_t getStr_keep
  getStr := keep_t getStr_keep
  getStrPeek := keep_t getStrPeek_keep
  remaining := by rintro _ _ _ ⟨rfl, _⟩; exact .inl rfl
  comments h := h
  commentsX h h' := by rw [h] at h'; cases h'
  trailingComma h := h
  trailingCommaX h h' := by rw [h] at h'; cases h'
  multi h := h
  multiX h h' := by rw [h] at h'; cases h'
  depth m h := ⟨m, h, Nat.le_refl _⟩
  depthX m h := .inl h
  restrict h := h
  restrictX h h' := by rw [h] at h'; cases h'

end Verif.AbsSrc

namespace Verif.Abs
open Reader Utf8 Json Usage

variable {st : Settings} {inp : Bytes} {g : Prop} {c : Ctx} {s : St} {m : Mode} {op : Op}

/-- calls do not change how the input ends -/
theorem runOp_term (op : Op) (s : St) : Wp (runOp op) s (fun _ s' => s'.src.term = s.src.term) (fun e s' => e.fatal = false → s'.src.term = s.src.term) := by
  have hr := Verif.Sim.runOpT (S := AbsSrc.termSim s.src.term s.settings) op s s (by
    obtain ⟨src, pk, e, mn, stk, sa, l, col, b, pa, se⟩ := s
    exact Verif.Sim.RRel.mk (S := AbsSrc.termSim src.term se) ⟨rfl, rfl⟩ ..)
  unfold RelAt at hr
  unfold Wp
  cases h : (runOp op).run s with
  | ok o s' =>
    rw [h] at hr
    obtain ⟨_, ⟨hr⟩⟩ := hr
    exact hr.2
  | err e s' =>
    rw [h] at hr
    intro hf
    rcases hr with hr | ⟨_, hr⟩
    · exact hr.elim
    · obtain ⟨hr⟩ := hr.1 ((RErr.fatal_iff e).1 hf)
      exact hr.2

theorem Inv.weaken {g' : Prop} (h : Inv st inp g m s) (hg : g' → g) : Inv st inp g' m s := by
  cases h with
  | «at» h => exact .at (h.weaken hg)
  | active x y h1 h2 h3 h4 => exact .active x y h1 h2 h3 fun h => h4 (hg h)

/-- the state after some calls -/
theorem runOps_state : ∀ (ops : List Op) {m m' : Mode} {s : St}, Inv st inp True m s → m.after ops (runOps ops s) = some m' →
    (∀ t l, Except.error (.unsupportedNumberValue t l) ∉ runOps ops s) →
    ∃ s' : St, Inv st inp True m' s' ∧ (∀ tail, runOps (ops ++ tail) s = runOps ops s ++ runOps tail s') ∧
      ∀ {α : Type} (p : Prog α), (p.after ops).toR.run s = p.toR.run s' := by
  intro ops
  induction ops with
  | nil =>
    intro m m' s h ha _
    cases ha
    exact ⟨s, h, fun _ => rfl, fun _ => rfl⟩
  | cons op ops ih =>
    intro m m' s h ha hn
    have hT : InvT st inp True m s := by unfold InvT; rw [noTerm_of_none h.term]; exact h
    have hw := call_any (op := op) hT
    have ht := runOp_term op s
    rw [h.term] at ht
    unfold Wp at hw ht
    have hr : ∀ l, runOps (op :: l) s = match (runOp op).run s with
      | .ok o s' => .ok o :: if op = .consumeTrailingWhitespace then [] else runOps l s'
      | .err e s' => .error e :: if e.fatal || op = .consumeTrailingWhitespace then [] else runOps l s' := fun _ => by rw [runOps]; cases (runOp op).run s <;> rfl
    simp only [List.cons_append, Prog.after, Prog.toR_call]
    simp only [hr] at ha hn ⊢
    cases hrun : (runOp op).run s with
    | ok o s' =>
      rw [hrun] at hw ha hn ht
      simp only at ha hn ht ⊢
      unfold Mode.after at ha
      by_cases hop : op = .consumeTrailingWhitespace
      · rw [if_pos hop] at ha; cases ha
      · rw [if_neg hop, if_neg hop] at ha
        rw [if_neg hop] at hn
        have hi := hw.2 hop
        unfold InvT at hi
        rw [noTerm_of_none ht] at hi
        obtain ⟨s2, h2, h3, h4⟩ := ih hi ha fun t l hm => hn t l (List.mem_cons_of_mem _ hm)
        refine ⟨s2, h2, ?_, h4⟩
        intro tail
        rw [if_neg hop, if_neg hop, h3, List.cons_append]
    | err e s' =>
      rw [hrun] at hw ha hn ht
      simp only at ha hn ht ⊢
      unfold Mode.after at ha
      by_cases hf : (e.fatal || Mode.composite op || decide (op = .consumeTrailingWhitespace)) = true
      · rw [if_pos hf] at ha; cases ha
      · rw [if_neg hf] at ha
        simp only [Bool.or_eq_true, decide_eq_true_eq, not_or] at hf
        obtain ⟨⟨hf1, hf2⟩, hf3⟩ := hf
        have hnf : ¬ (e.fatal || decide (op = .consumeTrailingWhitespace)) = true := by simp [hf1, hf3]
        rw [if_neg hnf] at ha hn
        cases hw with
        | src => exact absurd rfl hf1
        | panic => exact absurd rfl hf1
        | fatal h => exact absurd h hf1
        | nonfatal m2 h hm hc =>
          cases hc (eq_false_of_ne_true hf2)
          have hi := hm hf3
          unfold InvT at hi
          rw [noTerm_of_none (ht (eq_false_of_ne_true hf1))] at hi
          obtain ⟨s2, h2, h3, h4⟩ := ih (hi.weaken (g' := True) fun _ => ⟨trivial, fun t l he => hn t l (he ▸ List.mem_cons_self ..)⟩) ha
            fun t l hm => hn t l (List.mem_cons_of_mem _ hm)
          refine ⟨s2, h2, ?_, ?_⟩
          · intro tail
            rw [if_neg hnf, if_neg hnf, h3, List.cons_append]
          · intro α p
            rw [if_neg hf1]
            exact h4 p

end Verif.Abs
