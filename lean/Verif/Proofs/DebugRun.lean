import Verif.Proofs.Debug
import Verif.Proofs.After.Run
import Verif.Proofs.Abs.WhereRun
import Verif.Proofs.Writer.After
/-!
# The `Debug` implementations: the states in which they can be used
-/

namespace Verif.Debug
open Reader Sim Transfer

variable {N : Nat} {dbg : Bool}

/-- a call after which the reader can still be used -/
theorem call_next (hN : 0 < N) (settings : Settings) (c : RCall) {stale : Bool} {s1 : RState (BufSrcD N dbg)} {s2 : RState AbsSrc}
    (h : (BufSrc.simS dbg stale hN settings).RRel (.idle false) s1 s2) (hw : Abs.After.W s2) (he : (runCall c s1).1.ends c = false) :
    ∃ stale' t2, (BufSrc.simS dbg stale' hN settings).RRel (.idle false) (runCall c s1).2 t2 ∧ Abs.After.W t2 := by
  have hs := After.call_step hN settings c h hw
  generalize runCall c s1 = x at hs he
  obtain ⟨r, t1⟩ := x
  dsimp only at hs he ⊢
  cases hs with
  | ok t2 hr hi =>
    obtain ⟨h1, h2⟩ := hi (After.not_trailing he) he
    exact ⟨stale, t2, h1, h2⟩
  | exempt e hr hx =>
    rw [After.ends_panic hr (After.SX.isPanic hx)] at he
    cases he
  | err e t2 hr ht hi hg =>
    have hg := hg (After.not_trailing he)
    have hp : e.isPanic = false := by
      cases hp : e.isPanic with
      | false => rfl
      | true => rw [After.ends_panic hr hp] at he; cases he
    have data : e.data → Abs.After.WF t2 → t2.peeked = none → ∃ stale' t2, (BufSrc.simS dbg stale' hN settings).RRel (.idle false) t1 t2 ∧ Abs.After.W t2 := by
      intro hd hwf hpk
      obtain ⟨hfin, pk, e', m, st, sa, l, col, bp, pa⟩ := hi.2 hd
      exact ⟨_, _, RRel.mk (S := BufSrc.simS dbg (stale || e.trailing) hN settings) (After.rel_absOf hfin) .., Abs.After.WF.w ⟨hwf.path, hwf.name⟩ hpk⟩
    cases e with
    | panic p => cases hp
    | outOfFuel => cases hp
    | «syntax» k l => exact data trivial hg.1 hg.2
    | io k l => exact data trivial hg.1 hg.2
    | _ => exact ⟨stale, t2, hi.1 trivial, hg⟩

theorem statesAll_bnd (hN : 0 < N) (settings : Settings) (calls : List RCall) : ∀ {stale : Bool} {s1 : RState (BufSrcD N dbg)} {s2 : RState AbsSrc},
    (BufSrc.simS dbg stale hN settings).RRel (.idle false) s1 s2 → Abs.After.W s2 → ∀ t ∈ statesAll calls s1, BufSrc.Bnd t.src := by
  have here : ∀ {stale : Bool} {s1 : RState (BufSrcD N dbg)} {s2 : RState AbsSrc}, (BufSrc.simS dbg stale hN settings).RRel (.idle false) s1 s2 → BufSrc.Bnd s1.src := by
    rintro stale _ _ ⟨h, pk, e, m, st, sa, l, col, b, pa⟩
    exact (BufSrc.BRel.base h).bnd
  induction calls with
  | nil =>
    intro stale s1 s2 h _ t ht
    cases List.mem_singleton.1 ht
    exact here h
  | cons c calls ih =>
    intro stale s1 s2 h hw t ht
    unfold statesAll at ht
    rcases List.mem_cons.1 ht with rfl | ht
    · exact here h
    · dsimp only at ht
      cases he : (runCall c s1).1.ends c with
      | true => rw [he, if_pos rfl] at ht; cases ht
      | false =>
        rw [he, if_neg (by decide)] at ht
        obtain ⟨stale', t2, h1, h2⟩ := call_next hN settings c h hw he
        exact ih h1 h2 t ht

theorem statesAll_new (hN : 0 < N) (settings : Settings) (sched : List ReadEvent) (calls : List RCall) :
    ∀ t ∈ statesAll calls (new (BufSrc.newD N dbg sched) settings), BufSrc.Bnd t.src := by
  refine statesAll_bnd hN settings calls (RRel.mk (S := BufSrc.simS dbg false hN settings) (BufSrc.BRel.new sched) ..) (Abs.After.WF.w ⟨?_, nofun⟩ rfl)
  intro p hp
  dsimp only at hp
  split at hp
  · cases hp; trivial
  · cases hp

/-- after calls which were all successful -/
theorem afterOk_nx (hN : 0 < N) (settings : Settings) {F : Where.Fr} : ∀ (pre : List Op) {s1 : RState (BufSrcD N dbg)} {s2 : RState AbsSrc} {t1 : RState (BufSrcD N dbg)},
    .consumeTrailingWhitespace ∉ pre → (BufSrc.simS dbg false hN settings).RRel (.idle false) s1 s2 → Where.Nx F s2 → afterOk pre s1 = some t1 →
    ∃ t2, (BufSrc.simS dbg false hN settings).RRel (.idle false) t1 t2 ∧ Where.Nx F t2 := by
  intro pre
  induction pre with
  | nil => intro s1 s2 t1 _ h hn ht; cases ht; exact ⟨s2, h, hn⟩
  | cons op pre ih =>
    intro s1 s2 t1 hp h hn ht
    have hr := runOpT op s1 s2 h
    unfold RelAt at hr
    obtain ⟨p, b, x, y, pk, hrd⟩ := hn
    have hw := Where.runOp_wp (op := op) hrd fun ho => absurd (ho ▸ List.mem_cons_self) hp
    unfold afterOk at ht
    cases h1 : (runOp op).run s1 with
    | err e t => rw [h1] at ht; cases ht
    | ok a u1 =>
      rw [h1] at ht hr
      cases h2 : (runOp op).run s2 with
      | err e t => rw [h2] at hr; exact hr.elim
      | ok b u2 =>
        rw [h2] at hr
        obtain ⟨p', b', x', y', pk', h3⟩ := hw.ok h2
        exact ih (fun h => hp (List.mem_cons_of_mem _ h)) hr.2 ⟨p', b', x', y', pk', h3⟩ ht

open Writer in
theorem tree_fine {β : Type} {t : Tree β} {k : BufSink} (hN : 0 < N) (hk : k.Fine N) {b : β} {k' : BufSink} (h : t.run.run k = .ok b k') : k'.Fine N := by
  induction t generalizing k with
  | ret b => cases h; exact hk
  | panic p => cases h
  | emit bs f ih =>
    unfold Tree.run at h
    dsimp only at h
    have hw : match (Writer.writeBytes bs).run k with
      | .ok _ k' => k'.Fine N
      | .err (.err _) k' => k'.Fine N
      | .err (.panic _) _ => False := writeBytesLoop_fine hN hk (by split <;> omega)
    generalize (Writer.writeBytes bs).run k = r at hw h
    match r, hw, h with
    | .ok _ k', hw, h => exact ih _ hw h
    | .err (.err e) k', hw, h => exact ih _ hw h
  | flush f ih =>
    unfold Tree.run at h
    dsimp only at h
    have hw := flush_fine hk
    generalize Writer.flush.run k = r at hw h
    match r, hw, h with
    | .ok _ k', hw, h => exact ih _ hw h
    | .err (.err e) k', hw, h => exact ih _ hw h

open Writer in
theorem buffersAll_fine (hN : 0 < N) : ∀ (ops : List WOp) {c : Core} {k : BufSink}, k.Fine N → ∀ b ∈ buffersAll ops c k, b.Fine N := by
  intro ops
  induction ops with
  | nil => intro c k hk b hb; cases List.mem_singleton.1 hb; exact hk
  | cons o os ih =>
    intro c k hk b hb
    unfold buffersAll at hb
    rcases List.mem_cons.1 hb with rfl | hb
    · exact hk
    · cases h : ((Writer.wop o).run c).run.run k with
      | err p k' => rw [h] at hb; cases hb
      | ok a k' =>
        rw [h] at hb
        dsimp only at hb
        split at hb
        · cases hb
        · exact ih (tree_fine hN hk h) b hb

end Verif.Debug
