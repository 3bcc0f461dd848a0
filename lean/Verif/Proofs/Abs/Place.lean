import Verif.Proofs.Abs.Step
import Verif.Proofs.Abs.Same
import Verif.Proofs.Prog
/-! # The state of the reader is determined by the document and the cursor -/

namespace Verif.Abs
open Reader Utf8 Json

theorem appT_count (d : List (Ws × Cst)) (t : Tops) : topsCount (appT d t) = d.length + topsCount t := by
  induction d with
  | nil => simp [appT]
  | cons x d ih => simp [appT, topsCount, ih]; omega

theorem topsCount_values (t : Tops) : topsCount t = t.values.length := by
  induction t with
  | nil => rfl
  | cons w v rest ih => simp [topsCount, Tops.values, ih]

theorem appI_length (d : List (Sep × Cst)) (is : Items) : (appI d is).values.length = d.length + is.values.length := by
  induction d with
  | nil => simp [appI]
  | cons x d ih => simp [appI, Items.values, ih]; omega

theorem appM_length (d : List Mem) (ms : Members) : (appM d ms).values.length = d.length + ms.values.length := by
  induction d with
  | nil => simp [appM]
  | cons x d ih => simp [appM, Members.values, ih]; omega

theorem appT_inj {d1 d2 : List (Ws × Cst)} {t1 t2 : Tops} (h : appT d1 t1 = appT d2 t2) (hl : d1.length = d2.length) : d1 = d2 ∧ t1 = t2 := by
  induction d1 generalizing d2 with
  | nil => cases d2 with
    | nil => exact ⟨rfl, h⟩
    | cons => cases hl
  | cons x d1 ih => cases d2 with
    | nil => cases hl
    | cons y d2 =>
      simp only [appT, Tops.cons.injEq] at h
      obtain ⟨rfl, rfl⟩ := ih h.2.2 (by simpa using hl)
      exact ⟨by rw [Prod.ext h.1 h.2.1], rfl⟩

theorem appI_inj {d1 d2 : List (Sep × Cst)} {t1 t2 : Items} (h : appI d1 t1 = appI d2 t2) (hl : d1.length = d2.length) : d1 = d2 ∧ t1 = t2 := by
  induction d1 generalizing d2 with
  | nil => cases d2 with
    | nil => exact ⟨rfl, h⟩
    | cons => cases hl
  | cons x d1 ih => cases d2 with
    | nil => cases hl
    | cons y d2 =>
      simp only [appI, Items.cons.injEq] at h
      obtain ⟨rfl, rfl⟩ := ih h.2.2 (by simpa using hl)
      exact ⟨by rw [Prod.ext h.1 h.2.1], rfl⟩

theorem appM_inj {d1 d2 : List Mem} {t1 t2 : Members} (h : appM d1 t1 = appM d2 t2) (hl : d1.length = d2.length) : d1 = d2 ∧ t1 = t2 := by
  induction d1 generalizing d2 with
  | nil => cases d2 with
    | nil => exact ⟨rfl, h⟩
    | cons => cases hl
  | cons x d1 ih => cases d2 with
    | nil => cases hl
    | cons y d2 =>
      simp only [appM, Members.cons.injEq] at h
      obtain ⟨rfl, rfl⟩ := ih h.2.2.2.2.2 (by simpa using hl)
      obtain ⟨a1, a2, a3, a4, a5⟩ := x
      obtain ⟨b1, b2, b3, b4, b5⟩ := y
      obtain ⟨rfl, rfl, rfl, rfl, rfl, _⟩ := h
      exact ⟨rfl, rfl⟩

theorem frames_push {k1 k2 : Cursor.Cur} {f1 f2 : Cursor.Frame} (h : k1.push f1 = k2.push f2) : f1 = f2 ∧ k1 = k2 := by
  obtain ⟨a1, a2, a3, a4⟩ := k1
  obtain ⟨b1, b2, b3, b4⟩ := k2
  simp only [Cursor.Cur.push, Cursor.Cur.mk.injEq, List.cons.injEq] at h
  obtain ⟨⟨h1, rfl⟩, rfl, rfl, rfl⟩ := h
  exact ⟨h1, rfl⟩

section
variable {st : Settings} {T : Tops} {c c1 c2 : Ctx} {td td1 td2 : Todo} {s s1 s2 : St} {l1 l2 : Lead} {V1 V2 : Cst}

theorem docV_inj : ∀ {c1 c2 : Ctx} {td1 td2 : Todo} {l1 l2 : Lead} {V1 V2 : Cst}, After st c1 td1 → After st c2 td2 → c1.Slot l1 → c2.Slot l2 → outer c1 td1 l1 V1 = outer c2 td2 l2 V2 →
    docV c1 td1 l1 V1 = docV c2 td2 l2 V2 → c1 = c2 ∧ td1 = td2 ∧ l1 = l2 ∧ V1 = V2 := by
  intro c1
  induction c1 with
  | top d =>
    intro c2 td1 td2 l1 l2 V1 V2 h1 h2 s1 s2 hc hd
    cases td1 <;> first | exact h1.elim | skip
    cases l1 <;> first | exact s1.elim | skip
    cases c2 <;> cases td2 <;> first | exact h2.elim | skip
    · cases l2 <;> first | exact s2.elim | skip
      have hl := congrArg (fun k => k.tops.length) hc
      simp only [outer, List.length_cons, ← topsCount_values] at hl
      have hn := congrArg topsCount hd
      simp only [docV, appT_count, topsCount] at hn
      obtain ⟨rfl, h⟩ := appT_inj hd (by omega)
      simp only [Tops.cons.injEq] at h
      obtain ⟨rfl, rfl, rfl⟩ := h
      exact ⟨rfl, rfl, rfl, rfl⟩
    · exact absurd (congrArg (fun k => k.frames.length) hc) (by simp [outer, Cursor.Cur.push])
    · exact absurd (congrArg (fun k => k.frames.length) hc) (by simp [outer, Cursor.Cur.push])
  | obj => intro c2 td1 td2 l1 l2 V1 V2 h1; exact h1.elim
  | arr up lu d ih =>
    intro c2 td1 td2 l1 l2 V1 V2 h1 h2 s1 s2 hc hd
    cases td1 <;> first | exact h1.elim | skip
    cases l1 <;> first | exact s1.elim | skip
    cases c2 <;> cases td2 <;> first | exact h2.elim | skip
    · exact absurd (congrArg (fun k => k.frames.length) hc) (by simp [outer, Cursor.Cur.push])
    · cases l2 <;> first | exact s2.elim | skip
      obtain ⟨hf, ho⟩ := frames_push hc
      simp only [whole, Ctx.add, appI_append] at ho
      obtain ⟨rfl, rfl, rfl, hv⟩ := ih h1.2.2 h2.2.2 h1.1 h2.1 ho hd
      simp only [Cursor.Frame.array.injEq] at hf
      simp only [Cst.arr.injEq] at hv
      obtain ⟨rfl, h⟩ := appI_inj hv hf.1
      simp only [Items.cons.injEq] at h
      obtain ⟨rfl, rfl, rfl⟩ := h
      exact ⟨rfl, rfl, rfl, rfl⟩
    · exact absurd (frames_push hc).1 (by simp)
  | val up lu d sp n ih =>
    intro c2 td1 td2 l1 l2 V1 V2 h1 h2 s1 s2 hc hd
    cases td1 <;> first | exact h1.elim | skip
    cases l1 <;> first | exact s1.elim | skip
    cases c2 <;> cases td2 <;> first | exact h2.elim | skip
    · exact absurd (congrArg (fun k => k.frames.length) hc) (by simp [outer, Cursor.Cur.push])
    · exact absurd (frames_push hc).1 (by simp)
    · cases l2 <;> first | exact s2.elim | skip
      obtain ⟨hf, ho⟩ := frames_push hc
      simp only [whole, Ctx.add, appM_append] at ho
      obtain ⟨rfl, rfl, rfl, hv⟩ := ih h1.2.2 h2.2.2 h1.1 h2.1 ho hd
      simp only [Cursor.Frame.value.injEq] at hf
      simp only [Cst.obj.injEq] at hv
      have hn := congrArg (fun m => m.values.length) hv
      simp only [appM_length, Members.values, List.length_cons] at hn
      have hm := congrArg List.length hf.2.2
      obtain ⟨rfl, h⟩ := appM_inj hv (by omega)
      simp only [Members.cons.injEq] at h
      obtain ⟨rfl, rfl, rfl, rfl, rfl, rfl⟩ := h
      exact ⟨rfl, rfl, rfl, rfl⟩

theorem doc_inj (h1 : Fit st c1 td1) (h2 : Fit st c2 td2) (hc : cur c1 td1 = cur c2 td2) (hd : doc c1 td1 = doc c2 td2) : c1 = c2 ∧ td1 = td2 := by
  cases c1 <;> cases td1 <;> first | exact h1.elim | skip
  · cases c2 <;> cases td2 <;> first | exact h2.elim | skip
    · have hl := congrArg (fun k => k.tops.length) hc
      simp only [cur, ← topsCount_values] at hl
      have hn := congrArg topsCount hd
      simp only [doc, appT_count] at hn
      obtain ⟨rfl, rfl⟩ := appT_inj hd (by omega)
      exact ⟨rfl, rfl⟩
    all_goals exact absurd (congrArg (fun k => k.frames.length) hc) (by simp [cur, Cursor.Cur.push])
  · cases c2 <;> cases td2 <;> first | exact h2.elim | (exfalso; have hx := congrArg (fun k => k.frames.length) hc; simp [cur, Cursor.Cur.push] at hx; done) | (exfalso; have hx := (frames_push hc).1; cases hx; done) | skip
    obtain ⟨hf, ho⟩ := frames_push hc
    obtain ⟨rfl, rfl, rfl, hv⟩ := docV_inj h1.2.2 h2.2.2 h1.1 h2.1 ho hd
    simp only [Cursor.Frame.array.injEq] at hf
    simp only [Cst.arr.injEq] at hv
    obtain ⟨rfl, rfl⟩ := appI_inj hv hf.1
    exact ⟨rfl, rfl⟩
  · cases c2 <;> cases td2 <;> first | exact h2.elim | (exfalso; have hx := congrArg (fun k => k.frames.length) hc; simp [cur, Cursor.Cur.push] at hx; done) | (exfalso; have hx := (frames_push hc).1; cases hx; done) | skip
    obtain ⟨hf, ho⟩ := frames_push hc
    obtain ⟨rfl, rfl, rfl, hv⟩ := docV_inj h1.2.2 h2.2.2 h1.1 h2.1 ho hd
    simp only [Cursor.Frame.names.injEq] at hf
    simp only [Cst.obj.injEq] at hv
    have hn := congrArg (fun m => m.values.length) hv
    simp only [appM_length] at hn
    have hm := congrArg List.length hf.2
    obtain ⟨rfl, rfl⟩ := appM_inj hv (by omega)
    exact ⟨rfl, rfl⟩
  · cases c2 <;> cases td2 <;> first | exact h2.elim | (exfalso; have hx := congrArg (fun k => k.frames.length) hc; simp [cur, Cursor.Cur.push] at hx; done) | (exfalso; have hx := (frames_push hc).1; cases hx; done) | skip
    obtain ⟨hf, ho⟩ := frames_push hc
    obtain ⟨rfl, rfl, rfl, hv⟩ := docV_inj h1.2.2.2.2.2 h2.2.2.2.2.2 h1.1 h2.1 ho hd
    simp only [Cursor.Frame.value.injEq] at hf
    simp only [Cst.obj.injEq] at hv
    have hn := congrArg (fun m => m.values.length) hv
    simp only [appM_length, Members.values, List.length_cons] at hn
    have hm := congrArg List.length hf.2.2
    obtain ⟨rfl, h⟩ := appM_inj hv (by omega)
    simp only [Members.cons.injEq] at h
    obtain ⟨rfl, rfl, rfl, rfl, rfl, rfl⟩ := h
    exact ⟨rfl, rfl⟩

theorem Rep.same_place (h1 : Rep st T c1 td1 s1) (h2 : Rep st T c2 td2 s2) (hc : cur c1 td1 = cur c2 td2) : c1 = c2 ∧ td1 = td2 :=
  doc_inj h1.fit h2.fit hc (h1.doc.trans h2.doc.symm)

/-- Equal, except that one of the states may have been reached from the other one by peeking -/
def Near (s1 s2 : St) : Prop := s1 = s2 ∨ (∃ o, Pk o s1 s2) ∨ ∃ o, Pk o s2 s1

theorem Near.symm (h : Near s1 s2) : Near s2 s1 := by
  rcases h with h | h | h
  · exact .inl h.symm
  · exact .inr (.inr h)
  · exact .inr (.inl h)

theorem Same.symm {α : Type} {r r' : Res RErr St α} (h : Same r r') : Same r' r := by
  rcases h with h | ⟨p, s1, s2, h1, h2⟩
  · exact .inl h.symm
  · exact .inr ⟨p, s2, s1, h2, h1⟩

theorem Near.runOp {op : Op} (h : Near s1 s2) (ht : token op = true) (h1 : ∀ t, (runOp op).run s1 ≠ .err .outOfFuel t) (h2 : ∀ t, (runOp op).run s2 ≠ .err .outOfFuel t) :
    Same ((Reader.runOp op).run s1) ((Reader.runOp op).run s2) := by
  rcases h with rfl | ⟨o, h⟩ | ⟨o, h⟩
  · exact .inl rfl
  · exact h.runOp ht h2
  · exact (h.runOp ht h1).symm

theorem Rep.near (h1 : Rep st T c td s1) (h2 : Rep st T c td s2) : Near s1 s2 := by
  have key : ∀ {p l y}, c.LeadFor st p l → Follow p y → td.bytes = l.bytes ++ (tokBytes p ++ y) →
      Near (stp st c (posOf c.bytes) none td.bytes) (stp st c ((posOf c.bytes).over l.bytes) (some p) y) := by
    intro p l y hp hf he
    rw [he]
    exact .inr (.inl ⟨some p, pio_complete hp hf, pio_pk, rfl, rfl, rfl, rfl, rfl, by rw [← List.append_assoc]; exact fuel_le⟩)
  have key2 : ∀ {d t}, c = .top d → (d ≠ [] ∧ st.allowMultipleTopLevel = true) → td = .top (.nil t) →
      Near (stp st c (posOf c.bytes) none td.bytes) (stp st c ((posOf c.bytes).over t.bytes) none []) := by
    rintro d t rfl ⟨hd, hm⟩ rfl
    have hc : CanPeek st (.top d) := fun d' h => by cases h; exact .inr hm
    have ht : t.Ok st.allowComments := h1.fit.1
    refine .inr (.inl ⟨none, pio_eof hc ⟨t, ht, rfl⟩, (pio_eof hc ⟨⟨[], none⟩, ⟨nofun, nofun⟩, rfl⟩).trans rfl, rfl, rfl, rfl, rfl, rfl, ?_⟩)
    have := fuel_le (st := st) (c := .top d) (pos := posOf (Ctx.top d).bytes) (pos' := (posOf (Ctx.top d).bytes).over t.bytes) (pk := none) (pk' := none) (x := t.bytes) (y := [])
    rwa [List.append_nil] at this
  rcases h1.at' with a1 | ⟨p, l, y, hp, hf, he, a1⟩ | ⟨d, t, hc, hd, htd, a1⟩ <;> rcases h2.at' with a2 | ⟨p', l', y', hp', hf', he', a2⟩ | ⟨d', t', hc', hd', htd', a2⟩
  · exact .inl (a1.trans a2.symm)
  · rw [a1, a2]; exact key hp' hf' he'
  · rw [a1, a2]; exact key2 hc' hd' htd'
  · rw [a1, a2]; exact (key hp hf he).symm
  · have hb := he.symm.trans he'
    obtain ⟨rfl, rfl⟩ := tok_unique hp hp' hf hf' hb
    rw [a1, a2, List.append_cancel_right hb]
    exact .inl rfl
  · exfalso
    subst hc' htd'
    have h3 := pio_complete (pos := posOf []) hp hf
    rw [← he] at h3
    have h4 := pio_eof (st := st) (pos := posOf []) (c := .top d') (fun d h => by cases h; exact .inr hd'.2) ⟨t', h1.fit.1, rfl⟩
    cases h3.symm.trans h4
  · rw [a1, a2]; exact (key2 hc hd htd).symm
  · exfalso
    subst hc htd
    have h3 := pio_complete (pos := posOf []) hp' hf'
    rw [← he'] at h3
    have h4 := pio_eof (st := st) (pos := posOf []) (c := .top d) (fun d h => by cases h; exact .inr hd.2) ⟨t, h1.fit.1, rfl⟩
    cases h3.symm.trans h4
  · subst hc htd
    cases hc'
    cases htd'
    exact .inl (a1.trans a2.symm)

theorem RepC.near {k : Cursor.Cur} (h1 : RepC st T k s1) (h2 : RepC st T k s2) (hk : k.str = false) : Near s1 s2 := by
  rcases h1 with ⟨c, td, rfl, h1⟩ | ⟨h, _⟩
  · rcases h2 with ⟨c2, td2, he, h2⟩ | ⟨h, _⟩
    · obtain ⟨rfl, rfl⟩ := h1.same_place h2 he
      exact h1.near h2
    · exact absurd (hk.symm.trans h) nofun
  · exact absurd (hk.symm.trans h) nofun

/-- The state after calls which are specified -/
theorem reach_state {inp : Bytes} : ∀ (ops : List Op) {k k' : Cursor.Cur} {s : St}, RepC st T k s → (∃ g m, InvT st inp g m s) → Cursor.reach st ops k = some k' →
    ∃ s', RepC st T k' s' ∧ (∃ g m, InvT st inp g m s') ∧ (runOps ops s).length = ops.length ∧ (∀ tail, runOps (ops ++ tail) s = runOps ops s ++ runOps tail s') ∧
      (runOps ops s).map Cursor.view = Cursor.run st ops k ∧ (∀ tail, Cursor.run st (ops ++ tail) k = Cursor.run st ops k ++ Cursor.run st tail k') ∧
      ∀ (α : Type) (p : Prog α), (Prog.after ops p).toR.run s = p.toR.run s' := by
  intro ops
  induction ops with
  | nil =>
    intro k k' s h hi hr
    cases hr
    exact ⟨s, h, hi, rfl, fun _ => rfl, rfl, fun _ => rfl, fun _ _ => rfl⟩
  | cons op ops ih =>
    intro k k' s h hi hr
    obtain ⟨g, m, hi⟩ := hi
    have hw := call_any (op := op) hi
    unfold Wp at hw
    unfold Cursor.reach at hr
    have hct : op ≠ .consumeTrailingWhitespace := by
      rintro rfl
      unfold Cursor.step at hr
      dsimp only at hr
      split at hr
      · rename_i hx; split at hx <;> cases hx; cases hr
      · rename_i hx; split at hx <;> cases hx
      · cases hr
      · cases hr
    have h1 := step_sim h op hct
    have hrn : ∀ l, Cursor.run st (op :: l) k = match Cursor.step st k op with
      | .ok v c' => .ok v :: if op = .consumeTrailingWhitespace then [] else Cursor.run st l c'
      | .err k c' => .error k :: Cursor.run st l c'
      | .stop k => [.error k]
      | .misuse => [] := fun _ => rfl
    have hro : ∀ l, runOps (op :: l) s = match (runOp op).run s with
      | .ok o s' => .ok o :: if op = .consumeTrailingWhitespace then [] else runOps l s'
      | .err e s' => .error e :: if e.fatal || op = .consumeTrailingWhitespace then [] else runOps l s' := fun _ => by rw [runOps]; cases (runOp op).run s <;> rfl
    simp only [List.cons_append, hrn, hro, Prog.after, Prog.toR_call]
    cases hs : Cursor.step st k op with
    | misuse => rw [hs] at hr; cases hr
    | stop kd => rw [hs] at hr; cases hr
    | err kd k2 =>
      rw [hs] at h1 hr
      obtain ⟨e, s2, h2, rfl, h3, h4⟩ := h1
      rw [h2] at hw
      have hi2 : ∃ g m, InvT st inp g m s2 := by
        cases hw with
        | src => cases h3
        | panic => cases h3
        | fatal h => exact absurd (h3.symm.trans h) nofun
        | nonfatal m' h hm => exact ⟨_, _, hm hct⟩
      obtain ⟨s', i1, i0, i2, i3, i4, i5, i6⟩ := ih h4 hi2 hr
      rw [h2]
      refine ⟨s', i1, i0, ?_, ?_, ?_, ?_, ?_⟩ <;> simp only [h3, hct, decide_false, Bool.or_self, Bool.false_eq_true, if_false, List.length_cons, List.map_cons, List.cons_append]
      · rw [i2]
      · exact fun tail => by rw [i3]
      · rw [i4]; rfl
      · exact fun tail => by rw [i5]
      · exact fun α p => i6 α p
    | ok v k2 =>
      rw [hs] at h1 hr
      obtain ⟨o, s2, h2, rfl, h4⟩ := h1
      dsimp only at hr
      rw [if_neg hct] at hr
      rw [h2] at hw
      obtain ⟨s', i1, i0, i2, i3, i4, i5, i6⟩ := ih h4 ⟨_, _, hw.2 hct⟩ hr
      rw [h2]
      refine ⟨s', i1, i0, ?_, ?_, ?_, ?_, ?_⟩ <;> simp only [hct, if_false, List.length_cons, List.map_cons, List.cons_append]
      · rw [i2]
      · exact fun tail => by rw [i3]
      · rw [i4]; rfl
      · exact fun tail => by rw [i5]
      · exact fun α p => i6 α p

theorem InvT.fuel_ok {inp : Bytes} {g : Prop} {m : Usage.Mode} {op : Op} (h : InvT st inp g m s) : ∀ t, (runOp op).run s ≠ .err .outOfFuel t := by
  intro t ht
  have hw := call_any (op := op) h
  unfold Wp at hw
  rw [ht] at hw
  cases hw with
  | fatal _ _ hf => exact hf rfl
  | nonfatal _ h => cases h

/-- Two sequences of calls which lead to the same place: the later results are the same -/
theorem same_results {inp : Bytes} {ops1 ops2 : List Op} {op : Op} {tail : List Op} {k0 k : Cursor.Cur} (h : RepC st T k0 s) (hi : ∃ g m, InvT st inp g m s)
    (h1 : Cursor.reach st ops1 k0 = some k) (h2 : Cursor.reach st ops2 k0 = some k) (hk : k.str = false) (ht : token op = true) :
    ∃ rs, runOps (ops1 ++ op :: tail) s = runOps ops1 s ++ rs ∧ runOps (ops2 ++ op :: tail) s = runOps ops2 s ++ rs := by
  obtain ⟨s1, a1, ⟨g1, m1, b1⟩, _, c1, _, _, _⟩ := reach_state ops1 h hi h1
  obtain ⟨s2, a2, ⟨g2, m2, b2⟩, _, c2, _, _, _⟩ := reach_state ops2 h hi h2
  refine ⟨_, c1 _, ?_⟩
  rw [c2, runOps_same ((a1.near a2 hk).runOp ht b1.fuel_ok b2.fuel_ok)]

end
end Verif.Abs
