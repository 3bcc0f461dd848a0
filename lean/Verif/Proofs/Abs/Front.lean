import Verif.Proofs.Abs.Complete
import Verif.Proofs.Abs.Skip
/-! # In front of a value of a document -/

namespace Verif.Abs
open Reader Utf8 Json

section
variable {st : Settings} {inp : Bytes} {g : Prop} {c : Ctx} {l : Lead} {v : Cst} {pos : Pos} {r : Bytes} {s s' : St} {n : Nat}

theorem Ctx.Ok.of_add (h : (c.add l v).Ok st) (hs : c.Slot l) : c.Ok st ∧ c.LeadFor st (startOf v) l ∧ v.Ok (cfgOf st) := by
  cases c <;> cases l <;> first | exact hs.elim | skip
  · rename_i done w
    obtain ⟨h1, h2⟩ := h
    obtain ⟨h3, h4, h5, h6⟩ := topsOk_append.1 h1
    have h2 : done = [] ∨ st.allowMultipleTopLevel = true := h2.imp (fun h => by cases done with | nil => rfl | cons => simp at h) id
    refine ⟨⟨h3, h2.imp (fun h => by rw [h]; exact Nat.zero_le _) id⟩, ⟨isValue_start v, h4, h2, ?_⟩, h6⟩
    cases done with
    | nil => exact nofun
    | cons => exact h5
  · obtain ⟨h1, h2, h3⟩ := h
    obtain ⟨h4, h5, h6⟩ := itemsOk_append.1 h3
    exact ⟨⟨h1, h2, h4⟩, .inr ⟨isValue_start v, h5⟩, h6⟩
  · obtain ⟨h1, h2, h3⟩ := h
    obtain ⟨h4, h5, h6, h7, h8, h9⟩ := memsOk_append.1 h3
    exact ⟨⟨h1, h2, h4, h5, h6⟩, ⟨isValue_start v, h7, h8⟩, h9⟩

/-- the reader is in front of the value `v`; `pos` is the position of its first byte, `r` is the input behind the value -/
structure Front (st : Settings) (c : Ctx) (s : St) (l : Lead) (v : Cst) (pos : Pos) (r : Bytes) : Prop where
  lead : c.LeadFor st (startOf v) l
  ok : v.Ok (cfgOf st)
  bare : v.isBare = true → SepOk r
  peek : PeekTo (startOf v) s (stp st c pos (some (startOf v)) (tailOf v ++ r))
  at' : s = stp st c pos (some (startOf v)) (tailOf v ++ r) ∨ ∃ pos0, s = stp st c pos0 none (l.bytes ++ (v.bytes ++ r)) ∧ pos = pos0.over l.bytes

/-- the state behind the value -/
def behind (st : Settings) (c : Ctx) (l : Lead) (v : Cst) (pos : Pos) (r : Bytes) : St := stp st (c.add l v) (pos.over v.bytes) none r

namespace Front

theorem slot (h : Front st c s l v pos r) : c.Slot l := h.lead.slot (isValue_start v)
theorem emn (h : Front st c s l v pos r) : s.expectsMemberName = false := by
  rcases h.at' with h1 | ⟨_, h1, _⟩ <;> rw [h1] <;> exact h.slot.emn

theorem rest_le (h : Front st c s l v pos r) : (tailOf v ++ r).length ≤ s.src.rest.length := by
  rcases h.at' with h1 | ⟨_, h1, _⟩
  · rw [h1]; exact Nat.le_refl _
  · rw [h1, start_tail]
    show _ ≤ (l.bytes ++ ((tokBytes (startOf v) ++ tailOf v) ++ r)).length
    simp only [List.length_append]; omega

theorem of_none (hl : c.LeadFor st (startOf v) l) (hv : v.Ok (cfgOf st)) (hb : v.isBare = true → SepOk r) :
    Front st c (stp st c pos none (l.bytes ++ (v.bytes ++ r))) l v (pos.over l.bytes) r :=
  ⟨hl, hv, hb, peekTo_value hl hv hb, .inr ⟨_, rfl, rfl⟩⟩

theorem of_peeked (hl : c.LeadFor st (startOf v) l) (hv : v.Ok (cfgOf st)) (hb : v.isBare = true → SepOk r) :
    Front st c (stp st c pos (some (startOf v)) (tailOf v ++ r)) l v pos r :=
  ⟨hl, hv, hb, ⟨pio_pk, rfl, rfl, rfl, rfl, rfl, rfl, rfl⟩, .inl rfl⟩

/-- the same value after peeking -/
theorem peeked (h : Front st c s l v pos r) : Front st c (stp st c pos (some (startOf v)) (tailOf v ++ r)) l v pos r := of_peeked h.lead h.ok h.bare

end Front

theorem VPost.bare {x : Bytes} (hs : c.Slot l) (h : InvN st inp g (c.add l v) pos x) : v.isBare = true → SepOk x := by
  intro hb
  refine h.bare ?_
  rw [Ctx.add_lastBare hs]
  exact hb

/-- the next token is determined by the input -/
theorem tok_unique {p q : Peeked} {l' : Lead} {x y : Bytes} (hp : c.LeadFor st p l) (hq : c.LeadFor st q l') (hfp : Follow p x) (hfq : Follow q y)
    (h : l.bytes ++ (tokBytes p ++ x) = l'.bytes ++ (tokBytes q ++ y)) : p = q ∧ x = y := by
  have h1 := pio_complete (pos := ⟨0, 0, 0⟩) hp hfp
  have h2 := pio_complete (pos := ⟨0, 0, 0⟩) hq hfq
  rw [h, h2] at h1
  injection h1 with h1 h3
  cases h1
  exact ⟨rfl, (congrArg (fun s : St => s.src.rest) h3).symm⟩

/-- when a value has been consumed, the reader was in front of it -/
theorem front_of_post (h : At st inp True c s) (hv : VPost st inp True c s v s') :
    ∃ l pos r, Front st c s l v pos r ∧ s' = behind st c l v pos r := by
  obtain ⟨l, pos', r, hsl, rfl, hN, hm⟩ := hv
  obtain ⟨hok, -⟩ := hN.good trivial
  obtain ⟨hi, hpos⟩ := hN.exact trivial
  obtain ⟨hc, hl, hvok⟩ := hok.of_add hsl
  have hb := VPost.bare hsl hN.toInvN
  have hsp : NoSplit (c.bytes ++ l.bytes) v.bytes := noSplit_head (value_head hvok)
  rw [Ctx.add_bytes hsl] at hi hpos
  rw [← List.append_assoc, ← posOf_over hsp] at hpos
  cases h with
  | @n pos0 r0 h =>
    obtain ⟨_, ⟨h1, h2⟩ | ⟨h1, h2, _⟩⟩ := h.good trivial
    · rw [h1, List.append_assoc, List.append_assoc] at hi
      cases List.append_cancel_left hi
      refine ⟨l, _, r, Front.of_none hl hvok hb, ?_⟩
      rw [hpos, h2, posOf_over (Ctx.noCr hc).noSplit]
      rfl
    · subst h1
      simp [mu, stp] at hm
  | @p p l0 pos0 r0 h =>
    obtain ⟨_, h1, h2⟩ := h.good trivial
    rw [h1, List.append_assoc, List.append_assoc] at hi
    have hi := List.append_cancel_left hi
    rw [start_tail, List.append_assoc] at hi
    obtain ⟨rfl, rfl⟩ := tok_unique h.lead hl h.follow (follow_start hvok hb) hi
    refine ⟨l, _, r, Front.of_peeked hl hvok hb, ?_⟩
    have hll : l0.bytes = l.bytes := List.append_cancel_right hi
    rw [hpos, h2, hll]
    rfl

/-! ## `skip_value` -/

mutual
theorem costV_le {cfg : Cfg} (v : Cst) (h : v.Ok cfg) : costV v ≤ (tailOf v).length ∧ costV v + 1 ≤ v.bytes.length := by
  cases v with
  | null => exact ⟨Nat.zero_le _, by simp [costV, Cst.bytes]⟩
  | bool b => exact ⟨Nat.zero_le _, by cases b <;> simp [costV, Cst.bytes]⟩
  | num bs => exact ⟨Nat.zero_le _, List.length_pos_iff.2 (Cst.noCr h).2⟩
  | str x => exact ⟨Nat.zero_le _, List.length_pos_iff.2 (Cst.noCr h).2⟩
  | arr is =>
    have := costI_le true is h
    exact ⟨this, Nat.succ_le_succ this⟩
  | obj ms =>
    have := costM_le true ms h
    exact ⟨this, Nat.succ_le_succ this⟩
theorem costI_le {cfg : Cfg} (first : Bool) (is : Items) (h : is.Ok cfg first) : costI is ≤ is.bytes.length := by
  cases is with
  | nil => simp [costI, Items.bytes]
  | cons sp v rest =>
    have h1 := costI_le false rest h.2.2
    have h2 := (costV_le v h.2.1).2
    simp only [costI, Items.bytes, List.length_append]
    omega
theorem costM_le {cfg : Cfg} (first : Bool) (ms : Members) (h : ms.Ok cfg first) : costM ms ≤ ms.bytes.length := by
  cases ms with
  | nil => simp [costM, Members.bytes]
  | cons sp n w1 w2 v rest =>
    have h1 := costM_le false rest h.2.2.2.2.2
    have h2 := (costV_le v h.2.2.2.2.1).2
    simp only [costM, Members.bytes, List.length_append, List.length_cons]
    omega
end

theorem fuel_stp {pk : Option Peeked} : fuel (stp st c pos pk r) = r.length + 2 := rfl

theorem Front.skipValue (h : Front st c s l v pos r) (hf : Fits st c v.depth) : Reader.skipValue.run s = .ok () (behind st c l v pos r) := by
  unfold Reader.skipValue
  rw [run_get, h.emn, if_neg (by exact Bool.false_ne_true)]
  have h1 := (costV_le v h.ok).1
  have h2 := h.rest_le
  obtain ⟨k, hk⟩ : ∃ k, fuel s = k + costV v + 1 := by
    refine ⟨s.src.rest.length + 1 - costV v, ?_⟩
    show s.src.rest.length + 2 = _
    simp only [List.length_append] at h2
    omega
  rw [hk, skipLoop_top h.emn]
  refine (bind_congr (h.peek.skipValueStart h.emn)).trans ?_
  exact skipRest_value v (d := 0) h.slot h.ok hf h.bare

/-! ## Nesting limit -/

mutual
theorem deepAt_none (n : Nat) (v : Cst) : v.deepAt n = none ↔ v.depth ≤ n := by
  cases v with
  | arr is =>
    cases n with
    | zero => simp [Cst.deepAt, Cst.depth]
    | succ n => simp [Cst.deepAt, Cst.depth, deepAtI_none n is]
  | obj ms =>
    cases n with
    | zero => simp [Cst.deepAt, Cst.depth]
    | succ n => simp [Cst.deepAt, Cst.depth, deepAtM_none n ms]
  | _ => cases n <;> simp [Cst.deepAt, Cst.depth]
theorem deepAtI_none (n : Nat) (is : Items) : is.deepAt n = none ↔ is.depth ≤ n := by
  cases is with
  | nil => simp [Items.deepAt, Items.depth]
  | cons sp v rest =>
    have h1 := deepAt_none n v
    have h2 := deepAtI_none n rest
    simp only [Items.deepAt, Items.depth, Nat.max_le]
    rw [← h1]
    cases v.deepAt n <;> simp [h2]
theorem deepAtM_none (n : Nat) (ms : Members) : ms.deepAt n = none ↔ ms.depth ≤ n := by
  cases ms with
  | nil => simp [Members.deepAt, Members.depth]
  | cons sp x w1 w2 v rest =>
    have h1 := deepAt_none n v
    have h2 := deepAtM_none n rest
    simp only [Members.deepAt, Members.depth, Nat.max_le]
    rw [← h1]
    cases v.deepAt n <;> simp [h2]
end

/-- the nesting limit is reported for the bracket at the position -/
def DeepErr (st : Settings) (N : Nat) (pos : Pos) {α : Type} (res : Res RErr St α) : Prop :=
  ∃ c' q r', res = .err (.maxNestingDepthExceeded N (loc (stp st c' pos (some q) r'))) (stp st c' pos (some q) r') ∧ c'.stack.length = N ∧ (q = .arrayStart ∨ q = .objectStart)

theorem tooDeep_some {N : Nat} (h : st.maxNestingDepth = some N) (hn : N ≤ c.stack.length) : tooDeep st c = some N := by
  unfold Abs.tooDeep
  rw [h]
  exact if_pos hn

theorem tooDeep_none {N : Nat} (h : st.maxNestingDepth = some N) (hn : c.stack.length < N) : tooDeep st c = none := by
  unfold Abs.tooDeep
  rw [h]
  exact if_neg (by omega)

theorem fits_le {N : Nat} (h : st.maxNestingDepth = some N) (hn : c.stack.length ≤ N) {d : Nat} (hd : d ≤ N - c.stack.length) : Fits st c d := by
  intro m hm
  rw [h] at hm
  cases hm
  omega

theorem deep_prefix_head {n : Nat} {v : Cst} {p : Bytes} (h : v.deepAt n = some p) : p.head? ≠ some 0x0A := by
  cases v with
  | arr is =>
    cases n with
    | zero => cases h; simp
    | succ n =>
      obtain ⟨q, _, rfl⟩ := Option.map_eq_some_iff.1 h
      simp
  | obj is =>
    cases n with
    | zero => cases h; simp
    | succ n =>
      obtain ⟨q, _, rfl⟩ := Option.map_eq_some_iff.1 h
      simp
  | _ => cases n <;> cases h

theorem peek_stp {v : Cst} (h : c.Slot l) : Reader.peek.run (stp st c pos (some (startOf v)) r) = .ok (typeOf (startOf v)) (stp st c pos (some (startOf v)) r) := by
  unfold Reader.peek
  rw [run_get, if_neg (by show ¬ c.emn = true; rw [h.emn]; decide), M.bind_ok pi_pk, mapPeeked_value (isValue_start v)]

mutual
theorem skipRest_deep (v : Cst) : ∀ {c : Ctx} {l : Lead} {pos : Pos} {r : Bytes} {n d N : Nat} {p : Bytes}, c.Slot l → v.Ok (cfgOf st) → st.maxNestingDepth = some N →
    c.stack.length ≤ N → v.deepAt (N - c.stack.length) = some p →
    DeepErr st N (pos.over p) ((skipRest (n + costV v) d).run (stp st c pos (some (startOf v)) (tailOf v ++ r))) := by
  intro c l pos r n d N p hs hv hN hle hd
  cases v with
  | arr is =>
    by_cases hk : c.stack.length = N
    · rw [hk, Nat.sub_self] at hd
      cases hd
      refine ⟨c, .arrayStart, is.bytes ++ r, ?_, hk, .inl rfl⟩
      refine M.bind_err ?_
      unfold skipValueStart
      rw [M.bind_ok (peek_stp (v := .arr is) hs)]
      exact M.bind_err (M.bind_err (M.bind_err (sev_deep hs.emn rfl rfl (tooDeep_some hN (by omega)))))
    · obtain ⟨k, hk⟩ : ∃ k, N - c.stack.length = k + 1 := ⟨N - c.stack.length - 1, by omega⟩
      rw [hk] at hd
      obtain ⟨q, hq, rfl⟩ := Option.map_eq_some_iff.1 hd
      have h1 : skipValueStart.run (stp st c pos (some .arrayStart) (is.bytes ++ r)) = .ok 1 (stp st (.arr c l []) (pos.over [0x5B]) none (is.bytes ++ r)) := by
        unfold skipValueStart
        rw [M.bind_ok (show Reader.peek.run (stp st c pos (some .arrayStart) (is.bytes ++ r)) = _ from peek_stp (v := .arr is) hs)]
        exact (M.bind_ok (beginArray_ok hs (tooDeep_none hN (by omega)))).trans rfl
      unfold skipRest
      rw [show startOf (.arr is) = .arrayStart from rfl, show tailOf (.arr is) = is.bytes from rfl, M.bind_ok h1]
      rw [if_neg (by simp)]
      rw [show n + costV (.arr is) = n + costI is from rfl]
      have := skipLoop_items_deep is (up := c) (lu := l) (done := []) (pos := pos.over [0x5B]) (r := r) (n := n) (d := d) (N := N) (p := q) hs hv hN (by simp [Ctx.stack]; omega)
        (by rw [show N - (Ctx.arr c l []).stack.length = k by simp [Ctx.stack]; omega]; exact hq)
      rw [Pos.over_over _ (plain_cons (by decide) plain_nil : Plain [0x5B]).noBreak.left] at this
      exact this
  | obj ms =>
    by_cases hk : c.stack.length = N
    · rw [hk, Nat.sub_self] at hd
      cases hd
      refine ⟨c, .objectStart, ms.bytes ++ r, ?_, hk, .inr rfl⟩
      refine M.bind_err ?_
      unfold skipValueStart
      rw [M.bind_ok (peek_stp (v := .obj ms) hs)]
      exact M.bind_err (M.bind_err (M.bind_err (sev_deep hs.emn rfl rfl (tooDeep_some hN (by omega)))))
    · obtain ⟨k, hk⟩ : ∃ k, N - c.stack.length = k + 1 := ⟨N - c.stack.length - 1, by omega⟩
      rw [hk] at hd
      obtain ⟨q, hq, rfl⟩ := Option.map_eq_some_iff.1 hd
      have h1 : skipValueStart.run (stp st c pos (some .objectStart) (ms.bytes ++ r)) = .ok 1 (stp st (.obj c l []) (pos.over [0x7B]) none (ms.bytes ++ r)) := by
        unfold skipValueStart
        rw [M.bind_ok (show Reader.peek.run (stp st c pos (some .objectStart) (ms.bytes ++ r)) = _ from peek_stp (v := .obj ms) hs)]
        exact (M.bind_ok (beginObject_ok hs (tooDeep_none hN (by omega)))).trans rfl
      unfold skipRest
      rw [show startOf (.obj ms) = .objectStart from rfl, show tailOf (.obj ms) = ms.bytes from rfl, M.bind_ok h1]
      rw [if_neg (by simp)]
      rw [show n + costV (.obj ms) = n + costM ms from rfl]
      have := skipLoop_members_deep ms (up := c) (lu := l) (done := []) (pos := pos.over [0x7B]) (r := r) (n := n) (d := d) (N := N) (p := q) hs hv hN (by simp [Ctx.stack]; omega)
        (by rw [show N - (Ctx.obj c l []).stack.length = k by simp [Ctx.stack]; omega]; exact hq)
      rw [Pos.over_over _ (plain_cons (by decide) plain_nil : Plain [0x7B]).noBreak.left] at this
      exact this
  | null => cases hk : N - c.stack.length <;> rw [hk] at hd <;> cases hd
  | bool b => cases hk : N - c.stack.length <;> rw [hk] at hd <;> cases hd
  | num bs => cases hk : N - c.stack.length <;> rw [hk] at hd <;> cases hd
  | str x => cases hk : N - c.stack.length <;> rw [hk] at hd <;> cases hd
theorem skipLoop_items_deep (is : Items) : ∀ {up : Ctx} {lu : Lead} {done : List (Sep × Cst)} {pos : Pos} {r : Bytes} {n d N : Nat} {p : Bytes}, up.Slot lu → is.Ok (cfgOf st) done.isEmpty →
    st.maxNestingDepth = some N → (Ctx.arr up lu done).stack.length ≤ N → is.deepAt (N - (Ctx.arr up lu done).stack.length) = some p →
    DeepErr st N (pos.over p) ((skipValueLoop (n + costI is) (d + 1)).run (stp st (.arr up lu done) pos none (is.bytes ++ r))) := by
  intro up lu done pos r n d N p hs hok hN hle hd
  cases is with
  | nil close => cases hd
  | cons sp v rest =>
    obtain ⟨h1, h2, h3⟩ := hok
    have hb : v.isBare = true → SepOk (rest.bytes ++ r) := fun _ => items_sepOk h3
    have hn := hasNext_arr_c (st := st) (up := up) (lu := lu) (done := done) (pos := pos) (p := startOf v) (l := .sep sp) (r := tailOf v ++ (rest.bytes ++ r)) (.inr ⟨isValue_start v, h1⟩) (follow_start h2 hb)
    rw [isEnd_start] at hn
    have he : (Items.cons sp v rest).bytes ++ r = (Lead.sep sp).bytes ++ (tokBytes (startOf v) ++ (tailOf v ++ (rest.bytes ++ r))) := by
      simp only [Items.bytes, Lead.bytes, start_tail, List.append_assoc]
    rw [he, show n + costI (.cons sp v rest) = n + costI rest + costV v + 1 by simp only [costI]; omega, skipLoop_value hn rfl]
    unfold Items.deepAt at hd
    cases hvd : v.deepAt (N - (Ctx.arr up lu done).stack.length) with
    | some q =>
      rw [hvd] at hd
      cases hd
      have := skipRest_deep v (c := .arr up lu done) (l := .sep sp) (pos := pos.over sp.bytes) (r := rest.bytes ++ r) (n := n + costI rest) (d := d + 1) trivial h2 hN hle hvd
      rw [Pos.over_over _ (noSplit_head (deep_prefix_head hvd))] at this
      exact this
    | none =>
      rw [hvd] at hd
      obtain ⟨q, hq, rfl⟩ := Option.map_eq_some_iff.1 hd
      have hfit : Fits st (.arr up lu done) v.depth := fits_le hN hle ((deepAt_none _ _).1 hvd)
      rw [skipRest_value v (c := .arr up lu done) (l := .sep sp) trivial h2 hfit hb]
      show DeepErr st N _ ((skipValueLoop (n + costI rest) (d + 1)).run (stp st (.arr up lu (done ++ [(sp, v)])) ((pos.over sp.bytes).over v.bytes) none (rest.bytes ++ r)))
      have := skipLoop_items_deep rest (up := up) (lu := lu) (done := done ++ [(sp, v)]) (pos := (pos.over sp.bytes).over v.bytes) (r := r) (n := n) (d := d) (N := N) (p := q) hs
        (by rw [show (done ++ [(sp, v)]).isEmpty = false by simp]; exact h3) hN hle hq
      rw [over_value h2, Pos.over_over _ (noCr_append (Cst.noCr h2).2 (Cst.noCr h2).1).noSplit] at this
      rw [List.append_assoc] at this
      rw [over_value h2]
      exact this
theorem skipLoop_members_deep (ms : Members) : ∀ {up : Ctx} {lu : Lead} {done : List Mem} {pos : Pos} {r : Bytes} {n d N : Nat} {p : Bytes}, up.Slot lu → ms.Ok (cfgOf st) done.isEmpty →
    st.maxNestingDepth = some N → (Ctx.obj up lu done).stack.length ≤ N → ms.deepAt (N - (Ctx.obj up lu done).stack.length) = some p →
    DeepErr st N (pos.over p) ((skipValueLoop (n + costM ms) (d + 1)).run (stp st (.obj up lu done) pos none (ms.bytes ++ r))) := by
  intro up lu done pos r n d N p hs hok hN hle hd
  cases ms with
  | nil close => cases hd
  | cons sp x w1 w2 v rest =>
    obtain ⟨h1, hx, hw1, hw2, h2, h3⟩ := hok
    have hb : v.isBare = true → SepOk (rest.bytes ++ r) := fun _ => members_sepOk h3
    have hn := hasNext_obj_c (st := st) (up := up) (lu := lu) (done := done) (pos := pos) (p := .nameStart) (l := .sep sp)
      (r := x.body ++ 0x22 :: (w1.bytes ++ (0x3A :: (w2.bytes ++ (v.bytes ++ (rest.bytes ++ r)))))) (.inr ⟨rfl, h1⟩) trivial
    have he : (Members.cons sp x w1 w2 v rest).bytes ++ r = (Lead.sep sp).bytes ++ (tokBytes .nameStart ++ (x.body ++ 0x22 :: (w1.bytes ++ (0x3A :: (w2.bytes ++ (v.bytes ++ (rest.bytes ++ r))))))) := by
      simp [Members.bytes, Lead.bytes, Str.bytes, tokBytes]
    rw [he, show n + costM (.cons sp x w1 w2 v rest) = n + costM rest + costV v + 1 by simp only [costM]; omega]
    rw [skipLoop_value hn (s'' := stp st (.val up lu done sp x) ((pos.over sp.bytes).over x.bytes) none (w1.bytes ++ (0x3A :: (w2.bytes ++ (v.bytes ++ (rest.bytes ++ r)))))) (by
      unfold skipNameIfExpected
      rw [run_get]
      exact skipName_ok hx)]
    have hp := peekTo_value (st := st) (c := .val up lu done sp x) (l := .colon w1 w2) (pos := (pos.over sp.bytes).over x.bytes) (v := v) (r := rest.bytes ++ r) ⟨isValue_start v, hw1, hw2⟩ h2 hb
    rw [show (Lead.colon w1 w2).bytes ++ (v.bytes ++ (rest.bytes ++ r)) = w1.bytes ++ (0x3A :: (w2.bytes ++ (v.bytes ++ (rest.bytes ++ r)))) by simp [Lead.bytes]] at hp
    have hc : ∀ {k d}, (skipRest k d).run _ = (skipRest k d).run _ := fun {k d} => bind_congr (f := fun k' => if d + k' == 0 then pure () else skipValueLoop k (d + k')) (hp.skipValueStart rfl)
    rw [hc]
    have hx0 : x.bytes.head? ≠ some 0x0A := by simp [Str.bytes]
    have hps : ((pos.over sp.bytes).over x.bytes).over (Lead.colon w1 w2).bytes = pos.over (sp.bytes ++ (x.bytes ++ (Lead.colon w1 w2).bytes)) := by
      rw [Pos.over_over pos (noSplit_head hx0), Pos.over_over _ (noCr_append (by simp [Str.bytes]) (str_noCr x)).noSplit, List.append_assoc]
    unfold Members.deepAt at hd
    cases hvd : v.deepAt (N - (Ctx.obj up lu done).stack.length) with
    | some q =>
      rw [hvd] at hd
      cases hd
      have := skipRest_deep v (c := .val up lu done sp x) (l := .colon w1 w2) (pos := ((pos.over sp.bytes).over x.bytes).over (Lead.colon w1 w2).bytes) (r := rest.bytes ++ r) (n := n + costM rest) (d := d + 1) trivial h2 hN hle hvd
      rw [hps, Pos.over_over _ (noSplit_head (deep_prefix_head hvd))] at this
      rw [hps]
      rw [show sp.bytes ++ (x.bytes ++ (w1.bytes ++ (0x3A :: (w2.bytes ++ q)))) = (sp.bytes ++ (x.bytes ++ (Lead.colon w1 w2).bytes)) ++ q by simp [Lead.bytes]]
      exact this
    | none =>
      rw [hvd] at hd
      obtain ⟨q, hq, rfl⟩ := Option.map_eq_some_iff.1 hd
      have hfit : Fits st (.val up lu done sp x) v.depth := fits_le hN hle ((deepAt_none _ _).1 hvd)
      rw [skipRest_value v (c := .val up lu done sp x) (l := .colon w1 w2) trivial h2 hfit hb]
      show DeepErr st N _ ((skipValueLoop (n + costM rest) (d + 1)).run (stp st (.obj up lu (done ++ [(⟨sp, x, w1, w2, v⟩ : Mem)])) ((((pos.over sp.bytes).over x.bytes).over (Lead.colon w1 w2).bytes).over v.bytes) none (rest.bytes ++ r)))
      have := skipLoop_members_deep rest (up := up) (lu := lu) (done := done ++ [(⟨sp, x, w1, w2, v⟩ : Mem)]) (pos := (((pos.over sp.bytes).over x.bytes).over (Lead.colon w1 w2).bytes).over v.bytes) (r := r) (n := n) (d := d) (N := N) (p := q) hs
        (by rw [show (done ++ [(⟨sp, x, w1, w2, v⟩ : Mem)]).isEmpty = false by simp]; exact h3) hN hle hq
      rw [hps, over_value h2, Pos.over_over _ (noCr_append (Cst.noCr h2).2 (Cst.noCr h2).1).noSplit] at this
      rw [show sp.bytes ++ (x.bytes ++ (w1.bytes ++ (0x3A :: (w2.bytes ++ (v.bytes ++ q))))) = ((sp.bytes ++ (x.bytes ++ (Lead.colon w1 w2).bytes)) ++ v.bytes) ++ q by simp [Lead.bytes]]
      rw [hps, over_value h2]
      exact this
end

/-- skipping a value which is too deep -/
theorem Front.skipValue_deep {N : Nat} {p : Bytes} (h : Front st c s l v pos r) (hN : st.maxNestingDepth = some N) (hle : c.stack.length ≤ N) (hd : v.deepAt (N - c.stack.length) = some p) :
    DeepErr st N (pos.over p) (Reader.skipValue.run s) := by
  unfold Reader.skipValue
  rw [run_get, h.emn, if_neg (by exact Bool.false_ne_true)]
  have h1 := (costV_le v h.ok).1
  have h2 := h.rest_le
  obtain ⟨k, hk⟩ : ∃ k, fuel s = k + costV v + 1 := by
    refine ⟨s.src.rest.length + 1 - costV v, ?_⟩
    show s.src.rest.length + 2 = _
    simp only [List.length_append] at h2
    omega
  rw [hk, skipLoop_top h.emn]
  have hc : (skipRest (k + costV v) 0).run s = (skipRest (k + costV v) 0).run _ := bind_congr (h.peek.skipValueStart h.emn)
  rw [hc]
  exact skipRest_deep v (d := 0) h.slot h.ok hN hle hd

end
end Verif.Abs
