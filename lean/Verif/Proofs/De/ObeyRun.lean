import Verif.Proofs.De.Obey
import Verif.Proofs.CallsRel
import Verif.Proofs.Abs.Potential
import Verif.Props.Calls
/-! # Executions of the deserializer with arbitrary data -/

namespace Verif.De.Arb
open Reader Usage Obey DeSpec Abs

variable {α V : Type} {multi : Bool} {b : Prop} {max : Nat} {tr : List ((op : Op) × OpRes op)}

/-- the results of the calls -/
def resultsOf (tr : List ((op : Op) × OpRes op)) : List (Except RErr Out) := tr.map fun c => c.2

theorem Over.trace {ε σ : Type} {t : Calls Op OpRes (Except ε α × σ)} (h : Over t) (ht : Trace t tr) : tr = [] := by
  match t, h with
  | .ret (.error _, _), _ => cases ht; rfl

theorem Over.done {ε σ : Type} {t : Calls Op OpRes (Except ε α × σ)} {a : α} {d : σ} (h : Over t) (ht : Done t tr (.ok a, d)) : False := by
  match t, h with
  | .ret (.error _, _), _ => cases ht

section
variable {ε σ : Type} {Q : Know → α → σ → Prop}

theorem Ob.abides {t : Calls Op OpRes (Except ε α × σ)} : ∀ {tr : List ((op : Op) × OpRes op)} {k : Know}, Ob (rules multi False) Q t k → Trace t tr →
    k.mode.abides multi (tr.map Sigma.fst) (resultsOf tr) = true := by
  induction t with
  | ret a => intro tr k _ ht; cases ht; rfl
  | panic p => intro tr k _ ht; cases ht; rfl
  | call c f ih =>
    intro tr k h ht
    cases ht with
    | nil => rfl
    | call _ _ r tr ht =>
      show k.mode.abides multi (c :: tr.map Sigma.fst) (r :: resultsOf tr) = true
      cases r with
      | error e =>
        cases Over.trace ((h.2 (.error e)).1 rfl) ht
        unfold Mode.abides
        rw [h.1.1]
        show (e.fatal || decide (c = .consumeTrailingWhitespace) || if Mode.composite c = true then true else true) = true
        rw [ite_self, Bool.or_true]
      | ok o =>
        unfold Mode.abides
        rw [h.1.1, ih (.ok o) (k := ⟨k.mode.next o c, 0⟩) ((h.2 (.ok o)).2 rfl _ ⟨o, rfl, rfl, False.elim⟩) ht, Bool.or_true]
        rfl

theorem Ob.after {t : Calls Op OpRes (Except ε α × σ)} {a : α} {d : σ} : ∀ {tr : List ((op : Op) × OpRes op)} {k : Know}, Ob (rules multi False) Q t k → Done t tr (.ok a, d) →
    ∃ k', k.mode.after (tr.map Sigma.fst) (resultsOf tr) = some k'.mode ∧ Q k' a d := by
  induction t with
  | ret a => intro tr k h ht; cases ht; exact ⟨k, rfl, h⟩
  | panic p => intro tr k h ht; cases ht
  | call c f ih =>
    intro tr k h ht
    cases ht with
    | call _ _ r tr _ ht =>
      cases r with
      | error e => exact (Over.done ((h.2 (.error e)).1 rfl) ht).elim
      | ok o =>
        obtain ⟨k', h1, h2⟩ := ih (.ok o) (k := ⟨k.mode.next o c, 0⟩) ((h.2 (.ok o)).2 rfl _ ⟨o, rfl, rfl, False.elim⟩) ht
        refine ⟨k', ?_, h2⟩
        show Mode.after k.mode (c :: tr.map Sigma.fst) (.ok o :: resultsOf tr) = _
        unfold Mode.after
        rw [if_neg h.1.2]
        exact h1
end

/-- the result without the state of the deserializer -/
def strip (t : Calls Op OpRes (Except DErr V × Nat)) : Calls Op OpRes (Except DErr V) := t.bind fun (r, _) => .ret r

theorem strip_trace {t : Calls Op OpRes (Except DErr V × Nat)} : ∀ {tr : List ((op : Op) × OpRes op)}, Trace (strip t) tr → Trace t tr := by
  induction t with
  | ret a => intro tr h; obtain ⟨r, d⟩ := a; cases h; exact .nil _
  | panic p => intro tr h; cases h; exact .nil _
  | call c f ih =>
    intro tr h
    cases h with
    | nil => exact .nil _
    | call _ _ r tr h => exact .call _ _ _ _ (ih r h)

theorem strip_done {t : Calls Op OpRes (Except DErr V × Nat)} {r : Except DErr V} : ∀ {tr : List ((op : Op) × OpRes op)}, Done (strip t) tr r → ∃ d, Done t tr (r, d) := by
  induction t with
  | ret a => intro tr h; obtain ⟨r, d⟩ := a; cases h; exact ⟨d, .ret _⟩
  | panic p => intro tr h; cases h
  | call c f ih =>
    intro tr h
    cases h with
    | call _ _ r tr _ h => obtain ⟨d, h⟩ := ih r h; exact ⟨d, .call _ _ _ _ _ h⟩

/-- the code follows the rules and reads one value -/
def Follows (multi : Bool) (t : Calls Op OpRes (Except DErr V)) : Prop := ∃ t', t = strip t' ∧ ∀ (b : Prop) (k : Know), k.mode.canValue multi = true → Ob (rules multi b) (fun k' _ _ => Behind b k k') t' k

theorem follows_run {d : De V} (h : Orderly d) : Follows multi (De.run max d) := ⟨_, rfl, fun b k ha => deserialize_ok d h.1 h.2 k 0 ha⟩

theorem follows_next {d : De V} (h : Orderly d) : Follows multi (deserializeNext d) := by
  refine ⟨.call .peek fun
    | .error e => .ret (.error (.reader e), 0)
    | .ok _ => (deserialize defaultMaxNestingDepth d).run 0, ?_, fun b k ha => ⟨⟨ha, nofun⟩, fun r => ⟨fun hr => ?_, fun hr k' hk => ?_⟩⟩⟩
  · unfold deserializeNext strip
    rw [Calls.bind]
    congr 1
    funext r
    cases r <;> rfl
  · cases r with
    | error e => trivial
    | ok o => cases hr
  · obtain ⟨o, rfl, h1, h2⟩ := hk
    have hk : Kept b k k' := ⟨h1, fun hb => (h2 hb).1⟩
    exact Ob.mono (fun _ _ _ h => hk.behind h) _ (deserialize_ok d h.1 h.2 k' 0 (by rw [h1]; exact ha))

/-! ## The stream reader -/

variable {st : Settings} {inp : Bytes} {g : Prop}

/-- the state of the reader is as known -/
def At (st : Settings) (inp : Bytes) (g : Prop) (k : Know) (s : Option St) : Prop := ∃ s0, s = some s0 ∧ InvT st inp g k.mode s0 ∧ left s0 = k.left

theorem handle_fit : Fit (rules st.allowMultipleTopLevel True) (At st inp g) handle := by
  rintro k s op ⟨s, rfl, hs, hl⟩ ⟨ha, hne⟩
  have hw := call_wp hs hne
  unfold Wp at hw
  unfold FitAt handle
  dsimp only
  cases hr : (runOp op).run s with
  | ok o s' =>
    rw [hr] at hw
    dsimp only
    rw [if_neg hne]
    refine .inr ⟨rfl, ⟨k.mode.next o op, left s'⟩, ⟨o, rfl, rfl, fun _ => ⟨?_, fun h => ?_⟩⟩, s', rfl, hw.2, rfl⟩
    · rw [← hl]; exact (pot_runOp op).ok hr
    · rw [← hl]; exact less_runOp h _ _ _ hr
  | err e s' =>
    rw [hr] at hw
    have hp : ∀ p, e ≠ .panic p := by
      rintro p rfl
      cases hw with
      | panic h => rw [ha] at h; cases h
      | fatal h hp => exact hp _ rfl
      | nonfatal m' h => exact Bool.noConfusion h
    cases e with
    | panic p => exact absurd rfl (hp p)
    | _ => exact .inl rfl

theorem strip_run {S : Type} (h : (op : Op) → S → Outcome S (OpRes op)) (t : Calls Op OpRes (Except DErr V × Nat)) (s : S) : (strip t).run h s = match t.run h s with
    | .ret (r, _) s' => .ret r s'
    | .panic p => .panic p
    | .unspecified => .unspecified := by
  unfold strip
  rw [Calls.run_bind]
  cases t.run h s <;> rfl

/-- what happens for arbitrary data -/
theorem Follows.run {t : Calls Op OpRes (Except DErr V)} {m : Mode} {s : St} (h : Follows st.allowMultipleTopLevel t) (hs : InvT st inp g m s) (ha : m.canValue st.allowMultipleTopLevel = true) :
    match t.run handle (some s) with
    | .ret (.ok _) s' => ∃ s1, s' = some s1 ∧ InvT st inp g m.valueDone s1 ∧ left s1 < left s
    | .ret (.error _) _ => True
    | .panic p => DeSpec.Misused p
    | .unspecified => False := by
  obtain ⟨t, rfl, ht⟩ := h
  have h1 := Ob.run handle_fit t (ht True ⟨m, left s⟩ ha) ⟨s, rfl, hs, rfl⟩
  rw [strip_run]
  cases hr : t.run handle (some s) with
  | ret r s' =>
    rw [hr] at h1
    obtain ⟨r, d⟩ := r
    cases r with
    | error e => trivial
    | ok a =>
      obtain ⟨k', ⟨s1, rfl, h2, h3⟩, h4, h5⟩ := h1
      refine ⟨s1, rfl, ?_, ?_⟩
      · rw [h4] at h2; exact h2
      · have := h5 trivial; dsimp only at this; omega
  | panic p => rw [hr] at h1; exact h1
  | unspecified => rw [hr] at h1; exact h1

theorem calls_after (pre : List Op) : ∀ {g : Prop} {m m' : Mode} {s : St}, InvT st inp g m s → m.after pre (runOps pre s) = some m' →
    ∃ (s' : St) (g' : Prop), ((∀ r ∈ runOps pre s, ∀ t l, r ≠ .error (.unsupportedNumberValue t l)) → g → g') ∧ InvT st inp g' m' s' ∧
      ∀ (α : Type) (t : Calls Op OpRes α), (calls pre t).run handle (some s) = t.run handle (some s') := by
  induction pre with
  | nil =>
    intro g m m' s h ha
    cases ha
    exact ⟨s, g, fun _ h => h, h, fun _ _ => rfl⟩
  | cons op pre ih =>
    intro g m m' s h ha
    have hw := call_any (op := op) h
    unfold Wp at hw
    have hr : ∀ l, runOps (op :: l) s = match (runOp op).run s with
      | .ok o s' => .ok o :: if op = .consumeTrailingWhitespace then [] else runOps l s'
      | .err e s' => .error e :: if e.fatal || op = .consumeTrailingWhitespace then [] else runOps l s' := fun _ => by rw [runOps]; cases (runOp op).run s <;> rfl
    simp only [hr] at ha ⊢
    cases hrun : (runOp op).run s with
    | ok o s' =>
      rw [hrun] at hw ha
      simp only at ha ⊢
      unfold Mode.after at ha
      by_cases hop : op = .consumeTrailingWhitespace
      · rw [if_pos hop] at ha; cases ha
      · rw [if_neg hop, if_neg hop] at ha
        obtain ⟨s2, g', h1, h2, h3⟩ := ih (hw.2 hop) ha
        refine ⟨s2, g', ?_, h2, fun α t => ?_⟩
        · intro hr
          rw [if_neg hop] at hr
          exact h1 fun r h => hr r (List.mem_cons_of_mem _ h)
        · rw [calls, Calls.run]
          unfold handle
          dsimp only
          rw [hrun]
          dsimp only
          rw [if_neg hop]
          exact h3 α t
    | err e s' =>
      rw [hrun] at hw ha
      simp only at ha ⊢
      unfold Mode.after at ha
      by_cases hf : (e.fatal || Mode.composite op || decide (op = .consumeTrailingWhitespace)) = true
      · rw [if_pos hf] at ha; cases ha
      · rw [if_neg hf] at ha
        simp only [Bool.or_eq_true, decide_eq_true_eq, not_or] at hf
        obtain ⟨⟨hf1, hf2⟩, hf3⟩ := hf
        have hn : ¬ (e.fatal || decide (op = .consumeTrailingWhitespace)) = true := by simp [hf1, hf3]
        rw [if_neg hn] at ha
        cases hw with
        | src => exact absurd rfl hf1
        | panic => exact absurd rfl hf1
        | fatal h => exact absurd h hf1
        | nonfatal m2 h hm hc =>
          cases hc (eq_false_of_ne_true hf2)
          obtain ⟨s2, g', h1, h2, h3⟩ := ih (hm hf3) ha
          refine ⟨s2, g', ?_, h2, fun α t => ?_⟩
          · intro hr hg
            rw [if_neg hn] at hr
            refine h1 (fun r h => hr r (List.mem_cons_of_mem _ h)) ⟨hg, fun t l he => ?_⟩
            exact hr _ (List.mem_cons_self ..) t l (by rw [he])
          · rw [calls, Calls.run]
            unfold handle
            dsimp only
            rw [hrun]
            cases e with
            | panic p => cases h
            | _ =>
              dsimp only
              rw [if_neg hn]
              exact h3 α t

end Verif.De.Arb

namespace Verif.DeSpec
open De hiding method
variable {V : Type} {P Q : DErr → DErr → Prop}

theorem weaken_last {α β : Type} {k : Except DErr α → Except DErr β} (hpq : ∀ e e', P e e' → Q e e') (h : ∀ e, ∃ e', k (.error e) = .error e' ∧ P e e') :
    ∀ e, ∃ e', k (.error e) = .error e' ∧ Q e e' := fun e => let ⟨e', h1, h2⟩ := h e; ⟨e', h1, hpq _ _ h2⟩

mutual
theorem Aborts.weaken (hpq : ∀ e e', P e e' → Q e e') (d : De V) (h : Aborts P d) : Aborts Q d := by
  cases d with
  | ret r => rw [Aborts]; trivial
  | call m v k => rw [Aborts] at h ⊢; exact ⟨AbortsVis.weaken hpq v h.1, weaken_last hpq h.2⟩
theorem AbortsVis.weaken (hpq : ∀ e e', P e e' → Q e e') (v : Vis V) (h : AbortsVis P v) : AbortsVis Q v := by
  cases v with
  | mk prim opt newtype seq map enum =>
    rw [AbortsVis] at h ⊢
    exact ⟨Aborts.weaken hpq opt h.1, Aborts.weaken hpq newtype h.2.1, AbortsSeq.weaken hpq seq h.2.2.1, AbortsMap.weaken hpq map h.2.2.2.1, AbortsEnum.weaken hpq enum h.2.2.2.2⟩
theorem AbortsSeq.weaken (hpq : ∀ e e', P e e' → Q e e') (c : SeqC V) (h : AbortsSeq P c) : AbortsSeq Q c := by
  cases c with
  | ret r => rw [AbortsSeq]; trivial
  | next seed k =>
    rw [AbortsSeq] at h ⊢
    exact ⟨Aborts.weaken hpq seed h.1, fun x => AbortsSeq.weaken hpq _ (h.2.1 x), fun e => let ⟨e', h1, h2⟩ := h.2.2 e; ⟨e', h1, hpq _ _ h2⟩⟩
theorem AbortsMap.weaken (hpq : ∀ e e', P e e' → Q e e') (c : MapC V) (h : AbortsMap P c) : AbortsMap Q c := by
  cases c with
  | ret r => rw [AbortsMap]; trivial
  | key seed k =>
    rw [AbortsMap] at h ⊢
    exact ⟨Aborts.weaken hpq seed h.1, fun x => AbortsMap.weaken hpq _ (h.2.1 x), fun e => let ⟨e', h1, h2⟩ := h.2.2 e; ⟨e', h1, hpq _ _ h2⟩⟩
  | value seed k =>
    rw [AbortsMap] at h ⊢
    exact ⟨Aborts.weaken hpq seed h.1, fun x => AbortsMap.weaken hpq _ (h.2.1 x), fun e => let ⟨e', h1, h2⟩ := h.2.2 e; ⟨e', h1, hpq _ _ h2⟩⟩
theorem AbortsEnum.weaken (hpq : ∀ e e', P e e' → Q e e') (c : EnumC V) (h : AbortsEnum P c) : AbortsEnum Q c := by
  cases c with
  | ret r => rw [AbortsEnum]; trivial
  | variant seed onError k =>
    rw [AbortsEnum] at h ⊢
    exact ⟨Aborts.weaken hpq seed h.1, fun x => AbortsVar.weaken hpq _ (h.2.1 x), fun e => let ⟨e', h1, h2⟩ := h.2.2 e; ⟨e', h1, hpq _ _ h2⟩⟩
theorem AbortsVar.weaken (hpq : ∀ e e', P e e' → Q e e') (c : VarC V) (h : AbortsVar P c) : AbortsVar Q c := by
  cases c with
  | ret r => rw [AbortsVar]; trivial
  | unit k => rw [AbortsVar] at h ⊢; exact weaken_last hpq h
  | newtype seed k => rw [AbortsVar] at h ⊢; exact ⟨Aborts.weaken hpq seed h.1, weaken_last hpq h.2⟩
  | tuple n v k => rw [AbortsVar] at h ⊢; exact ⟨AbortsVis.weaken hpq v h.1, weaken_last hpq h.2⟩
  | struct v k => rw [AbortsVar] at h ⊢; exact ⟨AbortsVis.weaken hpq v h.1, weaken_last hpq h.2⟩
end

end Verif.DeSpec
