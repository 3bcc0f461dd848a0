import Verif.Proofs.Abs.Todo
/-! # The reader behaves like the cursor: skipping and seeking -/

namespace Verif.Abs
open Reader Utf8 Json

/-! ## Values -/

theorem typeOf_value (v : Cst) : Cursor.typeOf v.value = typeOf (startOf v) := by
  cases v with
  | bool b => cases b <;> rfl
  | _ => rfl

mutual
theorem depth_value (v : Cst) : Cursor.depth v.value = v.depth := by
  cases v with
  | arr is => simp only [Cst.value, Cursor.depth, Cst.depth, depth_values is]
  | obj ms => simp only [Cst.value, Cursor.depth, Cst.depth, depth_members ms]
  | _ => simp [Cst.value, Cursor.depth, Cst.depth]
theorem depth_values (is : Items) : Cursor.depthItems is.values = is.depth := by
  cases is with
  | nil => simp [Items.values, Cursor.depthItems, Items.depth]
  | cons sp v rest => simp only [Items.values, Cursor.depthItems, Items.depth, depth_value v, depth_values rest]
theorem depth_members (ms : Members) : Cursor.depthMembers ms.values = ms.depth := by
  cases ms with
  | nil => simp [Members.values, Cursor.depthMembers, Members.depth]
  | cons sp n w1 w2 v rest => simp only [Members.values, Cursor.depthMembers, Members.depth, depth_value v, depth_members rest]
end

theorem depthItems_map (ms : List (Text × JVal)) : Cursor.depthItems (ms.map Prod.snd) = Cursor.depthMembers ms := by
  induction ms with
  | nil => simp [Cursor.depthItems, Cursor.depthMembers]
  | cons x ms ih =>
    obtain ⟨n, v⟩ := x
    simp [Cursor.depthItems, Cursor.depthMembers, ih]

theorem chunks_pieces (lens : List Nat) : ∀ bs : Bytes, Cursor.chunks lens bs = pieces lens bs := by
  induction lens with
  | nil => intro bs; rfl
  | cons len lens ih => intro bs; simp [Cursor.chunks, pieces, ih]

section
variable {st : Settings} {T : Tops} {c up : Ctx} {td td' tu : Todo} {l lu : Lead} {v V : Cst} {s s' : St} {d : List (Sep × Cst)} {dm : List Mem} {is : Items} {ms : Members}

theorem deep_fits {k : Cursor.Cur} {n : Nat} (hk : k.frames.length = c.stack.length) : k.tooDeep st.maxNestingDepth n = none ↔ Fits st c n := by
  unfold Cursor.Cur.tooDeep Fits
  cases h : st.maxNestingDepth with
  | none => simp
  | some m => simp [hk]

theorem deep_some {k : Cursor.Cur} {n N : Nat} (hk : k.frames.length = c.stack.length) (h : k.tooDeep st.maxNestingDepth n = some N) : st.maxNestingDepth = some N ∧ N < c.stack.length + n := by
  unfold Cursor.Cur.tooDeep at h
  rw [hk] at h
  cases hm : st.maxNestingDepth with
  | none => rw [hm] at h; cases h
  | some m =>
    rw [hm] at h
    dsimp only at h
    by_cases hlt : m < c.stack.length + n
    · rw [if_pos hlt] at h; cases h; exact ⟨rfl, hlt⟩
    · rw [if_neg hlt] at h; cases h

/-- an error of the kind -/
def ErrK {α : Type} (k : Cursor.Kind) (res : Res RErr St α) : Prop := ∃ e s', res = .err e s' ∧ Cursor.kindOf e = k

theorem ErrK.bind {α β : Type} {k : Cursor.Kind} {m : R AbsSrc α} {f : α → R AbsSrc β} (h : ErrK k (m.run s)) : ErrK k ((m >>= f).run s) := by
  obtain ⟨e, s', h1, h2⟩ := h
  exact ⟨e, s', M.bind_err h1, h2⟩

theorem ErrK.after {α β : Type} {k : Cursor.Kind} {m : R AbsSrc α} {f : α → R AbsSrc β} {a : α} (hm : m.run s = .ok a s') (h : ErrK k ((f a).run s')) : ErrK k ((m >>= f).run s) := by
  rw [M.bind_ok hm]
  exact h

namespace Rep

theorem skipValue (h : Rep st T c td s) (hh : Heads c td l v td') (hf : Fits st c v.depth) : ∃ s', Reader.skipValue.run s = .ok () s' ∧ Rep st T (c.add l v) td' s' :=
  ⟨_, (h.front hh).skipValue hf, h.behind hh⟩

theorem skipValue_deep {N : Nat} (h : Rep st T c td s) (hh : Heads c td l v td') (hN : st.maxNestingDepth = some N) (hf : N < c.stack.length + v.depth) :
    ErrK (.depth N) (Reader.skipValue.run s) := by
  have hle := h.depth N hN
  cases hd : v.deepAt (N - c.stack.length) with
  | none =>
    have := (deepAt_none _ _).1 hd
    omega
  | some p =>
    obtain ⟨c', q, r', h1, -⟩ := (h.front hh).skipValue_deep hN hle hd
    exact ⟨_, _, h1, rfl⟩

theorem hasNextI (h : Rep st T (.arr up lu d) (.arr is tu) s) : ∃ s', Reader.hasNext.run s = .ok (moreI is) s' ∧ Rep st T (.arr up lu d) (.arr is tu) s' := by
  obtain ⟨s', h1, h2⟩ := h.items.hasNext
  exact ⟨s', h1, h.of_items h2⟩

theorem hasNextM (h : Rep st T (.obj up lu dm) (.obj ms tu) s) : ∃ s', Reader.hasNext.run s = .ok (moreM ms) s' ∧ Rep st T (.obj up lu dm) (.obj ms tu) s' := by
  obtain ⟨s', h1, h2⟩ := h.members.hasNext
  exact ⟨s', h1, h.of_members h2⟩

theorem skipName {sp : Sep} {x : Str} {w1 w2 : Ws} {rest : Members} (h : Rep st T (.obj up lu dm) (.obj (.cons sp x w1 w2 v rest) tu) s) :
    ∃ s', Reader.skipName.run s = .ok () s' ∧ Rep st T (.val up lu dm sp x) (.val w1 w2 v rest tu) s' :=
  ⟨_, h.members.skipName, h.named⟩

theorem nextName {sp : Sep} {x : Str} {w1 w2 : Ws} {rest : Members} (h : Rep st T (.obj up lu dm) (.obj (.cons sp x w1 w2 v rest) tu) s) :
    ∃ s', Reader.nextName.run s = .ok x.text s' ∧ Rep st T (.val up lu dm sp x) (.val w1 w2 v rest tu) s' :=
  ⟨_, h.members.nextName, h.named⟩

theorem nextNameOwned {sp : Sep} {x : Str} {w1 w2 : Ws} {rest : Members} (h : Rep st T (.obj up lu dm) (.obj (.cons sp x w1 w2 v rest) tu) s) :
    ∃ s', Reader.nextNameOwned.run s = .ok x.text s' ∧ Rep st T (.val up lu dm sp x) (.val w1 w2 v rest tu) s' :=
  ⟨_, h.members.nextNameOwned, h.named⟩

end Rep

/-! ## Rest of arrays and objects -/

theorem skipItems_rep : ∀ (is : Items) {d : List (Sep × Cst)} {s : St} {n : Nat}, Rep st T (.arr up lu d) (.arr is tu) s → is.values.length < n →
    (Fits st (.arr up lu d) is.depth → ∃ d' cl s', (skipItems n).run s = .ok () s' ∧ Rep st T (.arr up lu d') (.arr (.nil cl) tu) s' ∧ appI d' (.nil cl) = appI d is) ∧
    (∀ N, st.maxNestingDepth = some N → N < (Ctx.arr up lu d).stack.length + is.depth → ErrK (.depth N) ((skipItems n).run s))
  | .nil cl, d, s, n, h, hn => by
    obtain ⟨n, rfl⟩ : ∃ k, n = k + 1 := ⟨n - 1, by omega⟩
    obtain ⟨s1, h1, h2⟩ := h.hasNextI
    rw [skipItems_succ]
    constructor
    · intro _
      refine ⟨d, cl, s1, ?_, h2, rfl⟩
      rw [M.bind_ok h1]
      rfl
    · intro N hN hlt
      have := h.depth N hN
      simp only [Items.depth] at hlt
      omega
  | .cons sp v rest, d, s, n, h, hn => by
    obtain ⟨n, rfl⟩ : ∃ k, n = k + 1 := ⟨n - 1, by omega⟩
    obtain ⟨s1, h1, h2⟩ := h.hasNextI
    rw [skipItems_succ]
    have hn' : rest.values.length < n := by simp only [Items.values, List.length_cons] at hn; omega
    by_cases hv : Fits st (.arr up lu d) v.depth
    · obtain ⟨s2, h3, h4⟩ := h2.skipValue .arr hv
      obtain ⟨i1, i2⟩ := skipItems_rep rest h4 hn'
      constructor
      · intro hf
        obtain ⟨d', cl, s', h5, h6, h7⟩ := i1 (hf.mono (by simp only [Items.depth, Ctx.stack]; omega))
        refine ⟨d', cl, s', ?_, h6, by rw [h7, appI_append]⟩
        rw [M.bind_ok h1]
        exact (M.bind_ok h3).trans h5
      · intro N hN hlt
        refine ErrK.after h1 ?_
        refine ErrK.after h3 (i2 N hN ?_)
        have := hv N hN
        simp only [Items.depth] at hlt
        simp only [Ctx.add, Ctx.stack] at *
        omega
    · constructor
      · intro hf
        exact absurd (hf.mono (by simp only [Items.depth]; omega)) hv
      · intro N hN hlt
        refine ErrK.after h1 ?_
        refine ErrK.bind (h2.skipValue_deep .arr hN ?_)
        refine Nat.lt_of_not_le fun hle => hv ?_
        intro m hm
        rw [hN] at hm
        cases hm
        exact hle

theorem skipMembers_rep : ∀ (ms : Members) {dm : List Mem} {s : St} {n : Nat}, Rep st T (.obj up lu dm) (.obj ms tu) s → ms.values.length < n →
    (Fits st (.obj up lu dm) ms.depth → ∃ d' cl s', (skipMembers n).run s = .ok () s' ∧ Rep st T (.obj up lu d') (.obj (.nil cl) tu) s' ∧ appM d' (.nil cl) = appM dm ms) ∧
    (∀ N, st.maxNestingDepth = some N → N < (Ctx.obj up lu dm).stack.length + ms.depth → ErrK (.depth N) ((skipMembers n).run s))
  | .nil cl, d, s, n, h, hn => by
    obtain ⟨n, rfl⟩ : ∃ k, n = k + 1 := ⟨n - 1, by omega⟩
    obtain ⟨s1, h1, h2⟩ := h.hasNextM
    rw [skipMembers_succ]
    constructor
    · intro _
      refine ⟨d, cl, s1, ?_, h2, rfl⟩
      rw [M.bind_ok h1]
      rfl
    · intro N hN hlt
      have := h.depth N hN
      simp only [Members.depth] at hlt
      omega
  | .cons sp x w1 w2 v rest, d, s, n, h, hn => by
    obtain ⟨n, rfl⟩ : ∃ k, n = k + 1 := ⟨n - 1, by omega⟩
    obtain ⟨s0, h0, h1'⟩ := h.hasNextM
    obtain ⟨s1, h1, h2⟩ := h1'.skipName
    rw [skipMembers_succ]
    have hn' : rest.values.length < n := by simp only [Members.values, List.length_cons] at hn; omega
    by_cases hv : Fits st (.val up lu d sp x) v.depth
    · obtain ⟨s2, h3, h4⟩ := h2.skipValue .val hv
      obtain ⟨i1, i2⟩ := skipMembers_rep rest h4 hn'
      constructor
      · intro hf
        obtain ⟨d', cl, s', h5, h6, h7⟩ := i1 (hf.mono (by simp only [Members.depth, Ctx.stack]; omega))
        refine ⟨d', cl, s', ?_, h6, by rw [h7, appM_append]⟩
        rw [M.bind_ok h0]
        exact (M.bind_ok h1).trans ((M.bind_ok h3).trans h5)
      · intro N hN hlt
        refine ErrK.after h0 ?_
        refine ErrK.after h1 ?_
        refine ErrK.after h3 (i2 N hN ?_)
        have := hv N hN
        simp only [Members.depth] at hlt
        simp only [Ctx.stack] at *
        omega
    · constructor
      · intro hf
        exact absurd (hf.mono (by simp only [Members.depth, Ctx.stack]; omega)) hv
      · intro N hN hlt
        refine ErrK.after h0 ?_
        refine ErrK.after h1 ?_
        refine ErrK.bind (h2.skipValue_deep .val hN ?_)
        refine Nat.lt_of_not_le fun hle => hv ?_
        intro m hm
        rw [hN] at hm
        cases hm
        exact hle

theorem values_le {cfg : Cfg} {first : Bool} : ∀ (is : Items), is.Ok cfg first → is.values.length < is.bytes.length
  | .nil cl, _ => by simp [Items.values, Items.bytes]
  | .cons sp v rest, h => by
    have h1 := values_le rest h.2.2
    have h2 := List.length_pos_iff.2 (Cst.noCr h.2.1).2
    simp only [Items.values, Items.bytes, List.length_cons, List.length_append]
    omega

theorem membersLength_le : ∀ (ms : Members), ms.values.length < ms.bytes.length
  | .nil cl => by simp [Members.values, Members.bytes]
  | .cons sp x w1 w2 v rest => by
    have h1 := membersLength_le rest
    simp only [Members.values, Members.bytes, List.length_cons, List.length_append]
    omega

theorem headTailI_length {cfg : Cfg} {first : Bool} (h : is.Ok cfg first) : is.values.length ≤ (headTailI is).length + 1 := by
  cases is with
  | nil => exact Nat.zero_le _
  | cons sp v rest =>
    have := values_le rest h.2.2
    simp only [Items.values, headTailI, List.length_cons, List.length_append]
    omega

theorem headTailM_length : ms.values.length ≤ (headTailM ms).length + 1 := by
  cases ms with
  | nil => exact Nat.zero_le _
  | cons sp x w1 w2 v rest =>
    have := membersLength_le rest
    simp only [Members.values, headTailM, List.length_cons, List.length_append]
    omega

theorem Rep.fuelI (h : Rep st T (.arr up lu d) (.arr is tu) s) : is.values.length < fuel s := by
  have h1 := values_le is h.fit.2.1
  have h2 := headTailI_length h.fit.2.1
  show _ < s.src.rest.length + 2
  rcases h.items.at' with h3 | h3 <;> rw [h3]
  · show _ < (is.bytes ++ tu.bytes).length + 2
    rw [List.length_append]; omega
  · show _ < (headTailI is ++ tu.bytes).length + 2
    rw [List.length_append]; omega

theorem Rep.fuelM (h : Rep st T (.obj up lu dm) (.obj ms tu) s) : ms.values.length < fuel s := by
  have h1 := membersLength_le ms
  have h2 := headTailM_length (ms := ms)
  show _ < s.src.rest.length + 2
  rcases h.members.at' with h3 | h3 <;> rw [h3]
  · show _ < (ms.bytes ++ tu.bytes).length + 2
    rw [List.length_append]; omega
  · show _ < (headTailM ms ++ tu.bytes).length + 2
    rw [List.length_append]; omega

/-- skip the rest of the array -/
theorem Rep.finishArray (h : Rep st T (.arr up lu d) (.arr is tu) s) (hf : Fits st (.arr up lu d) is.depth) :
    ∃ s', Reader.finishArray.run s = .ok () s' ∧ Rep st T (up.add lu (.arr (appI d is))) tu s' := by
  obtain ⟨d', cl, s1, h1, h2, h3⟩ := (skipItems_rep is h h.fuelI).1 hf
  obtain ⟨s2, h4, h5⟩ := h2.endArray
  rw [h3] at h5
  refine ⟨s2, ?_, h5⟩
  unfold Reader.finishArray
  rw [run_get, M.bind_ok h1]
  exact h4

theorem Rep.finishObject (h : Rep st T (.obj up lu dm) (.obj ms tu) s) (hf : Fits st (.obj up lu dm) ms.depth) :
    ∃ s', Reader.finishObject.run s = .ok () s' ∧ Rep st T (up.add lu (.obj (appM dm ms))) tu s' := by
  obtain ⟨d', cl, s1, h1, h2, h3⟩ := (skipMembers_rep ms h h.fuelM).1 hf
  obtain ⟨s2, h4, h5⟩ := h2.endObject
  rw [h3] at h5
  refine ⟨s2, ?_, h5⟩
  unfold Reader.finishObject
  rw [run_get, M.bind_ok h1]
  exact h4

theorem Rep.finishArray_deep {N : Nat} (h : Rep st T (.arr up lu d) (.arr is tu) s) (hN : st.maxNestingDepth = some N) (hf : N < (Ctx.arr up lu d).stack.length + is.depth) :
    ErrK (.depth N) (Reader.finishArray.run s) := by
  unfold Reader.finishArray
  rw [run_get]
  exact ErrK.bind ((skipItems_rep is h h.fuelI).2 N hN hf)

theorem Rep.finishObject_deep {N : Nat} (h : Rep st T (.obj up lu dm) (.obj ms tu) s) (hN : st.maxNestingDepth = some N) (hf : N < (Ctx.obj up lu dm).stack.length + ms.depth) :
    ErrK (.depth N) (Reader.finishObject.run s) := by
  unfold Reader.finishObject
  rw [run_get]
  exact ErrK.bind ((skipMembers_rep ms h h.fuelM).2 N hN hf)

/-! ## Results -/

/-- the reader is at the cursor -/
def RepC (st : Settings) (T : Tops) (k : Cursor.Cur) (s : St) : Prop :=
  (∃ c td, k = cur c td ∧ Rep st T c td s) ∨ (k.str = true ∧ ∃ c pos r, s = active st c pos r ∧ k.frames.map Cursor.Frame.piece = c.path)

/-- the result is the one of the specification -/
def Sim {α : Type} (st : Settings) (T : Tops) (g : α → Cursor.Val) (res : Res RErr St α) : Cursor.Step → Prop
  | .ok v k => ∃ a s', res = .ok a s' ∧ g a = v ∧ RepC st T k s'
  | .err kd k => ∃ e s', res = .err e s' ∧ Cursor.kindOf e = kd ∧ e.fatal = false ∧ RepC st T k s'
  | .stop kd => ErrK kd res
  | .misuse => True

theorem RepC.of (h : Rep st T c td s) : RepC st T (cur c td) s := .inl ⟨c, td, rfl, h⟩

theorem Sim.out {α : Type} {g : α → Cursor.Val} {f : α → Out} {m : R AbsSrc α} {stp : Cursor.Step} (h : Sim st T g (m.run s) stp) (hg : ∀ a, Cursor.valOf (f a) = g a) :
    Sim st T Cursor.valOf ((m >>= fun a => pure (f a)).run s) stp := by
  cases stp with
  | ok v k =>
    obtain ⟨a, s', h1, h2, h3⟩ := h
    exact ⟨f a, s', (M.bind_ok h1).trans rfl, (hg a).trans h2, h3⟩
  | err kd k =>
    obtain ⟨e, s', h1, h2⟩ := h
    exact ⟨e, s', M.bind_err h1, h2⟩
  | stop kd => exact ErrK.bind h
  | misuse => trivial

abbrev un : Unit → Cursor.Val := fun _ => .unit

/-! ## Leaving arrays and objects -/

theorem pop_items (h : Fit st (.arr up lu d) (.arr is tu)) : (cur (.arr up lu d) (.arr is tu)).pop = cur (up.add lu (.arr (appI d is))) tu :=
  (h.2.2.cur h.1).symm

theorem pop_members (h : Fit st (.obj up lu dm) (.obj ms tu)) : (cur (.obj up lu dm) (.obj ms tu)).pop = cur (up.add lu (.obj (appM dm ms))) tu :=
  (h.2.2.cur h.1).symm

theorem finish_items (h : Fit st (.arr up lu d) (.arr is tu)) : Cursor.finish st (cur (.arr up lu d) (.arr is tu)) =
    match (cur (.arr up lu d) (.arr is tu)).tooDeep st.maxNestingDepth is.depth with
    | some n => .stop (.depth n)
    | none => .ok .unit (cur (up.add lu (.arr (appI d is))) tu) := by
  rw [← pop_items h, ← depth_values]
  rfl

theorem finish_members (h : Fit st (.obj up lu dm) (.obj ms tu)) : Cursor.finish st (cur (.obj up lu dm) (.obj ms tu)) =
    match (cur (.obj up lu dm) (.obj ms tu)).tooDeep st.maxNestingDepth ms.depth with
    | some n => .stop (.depth n)
    | none => .ok .unit (cur (up.add lu (.obj (appM dm ms))) tu) := by
  rw [← pop_members h, ← depth_members, ← depthItems_map]
  rfl

theorem finishAll_sim : ∀ {n : Nat} {c : Ctx} {td : Todo} {s : St}, Rep st T c td s → c.stack.length = n → c.isVal = false →
    Sim st T un ((skipToTopLevelLoop n).run s) (Cursor.finishAll st n (cur c td))
  | 0, c, td, s, h, hn, hv => by
    have hs := h.stack
    refine ⟨(), s, ?_, rfl, .of h⟩
    unfold skipToTopLevelLoop
    rw [run_get, hs, List.eq_nil_of_length_eq_zero hn]
    rfl
  | n + 1, c, td, s, h, hn, hv => by
    have hs := h.stack
    have hf := h.fit
    cases c with
    | top d => cases hn
    | val => cases hv
    | arr up lu d =>
      cases td <;> first | exact hf.elim | skip
      rename_i is tu
      rw [skipToTopLevelLoop_succ, run_get, hs]
      unfold Cursor.finishAll
      rw [finish_items hf]
      cases hd : (cur (.arr up lu d) (.arr is tu)).tooDeep st.maxNestingDepth is.depth with
      | some N =>
        obtain ⟨h1, h2⟩ := deep_some (cur_length hf) hd
        exact ErrK.bind (h.finishArray_deep h1 h2)
      | none =>
        obtain ⟨s1, h1, h2⟩ := h.finishArray ((deep_fits (cur_length hf)).1 hd)
        show Sim st T un ((Reader.finishArray >>= fun _ => skipToTopLevelLoop n).run s) _
        rw [M.bind_ok h1]
        exact finishAll_sim h2 (by rw [Ctx.add_stack]; simpa [Ctx.stack] using hn) (Ctx.add_isVal hf.1)
    | obj up lu d =>
      cases td <;> first | exact hf.elim | skip
      rename_i ms tu
      rw [skipToTopLevelLoop_succ, run_get, hs]
      unfold Cursor.finishAll
      rw [finish_members hf]
      cases hd : (cur (.obj up lu d) (.obj ms tu)).tooDeep st.maxNestingDepth ms.depth with
      | some N =>
        obtain ⟨h1, h2⟩ := deep_some (cur_length hf) hd
        exact ErrK.bind (h.finishObject_deep h1 h2)
      | none =>
        obtain ⟨s1, h1, h2⟩ := h.finishObject ((deep_fits (cur_length hf)).1 hd)
        show Sim st T un ((Reader.finishObject >>= fun _ => skipToTopLevelLoop n).run s) _
        rw [M.bind_ok h1]
        exact finishAll_sim h2 (by rw [Ctx.add_stack]; simpa [Ctx.stack] using hn) (Ctx.add_isVal hf.1)

theorem back_sim : ∀ {ps : List PathPiece} {c : Ctx} {td : Todo} {s : St}, Rep st T c td s → Sim st T un ((seekBackLoop ps).run s) (Cursor.back st ps (cur c td))
  | [], c, td, s, h => ⟨(), s, rfl, rfl, .of h⟩
  | .arrayItem i :: ps, c, td, s, h => by
    have hf := h.fit
    cases c with
    | arr up lu d =>
      cases td <;> first | exact hf.elim | skip
      rename_i is tu
      have : Cursor.back st (.arrayItem i :: ps) (cur (.arr up lu d) (.arr is tu)) = match Cursor.finish st (cur (.arr up lu d) (.arr is tu)) with
        | .ok _ c' => Cursor.back st ps c'
        | s => s := rfl
      rw [this, finish_items hf]
      show Sim st T un ((Reader.finishArray >>= fun _ => seekBackLoop ps).run s) _
      cases hd : (cur (.arr up lu d) (.arr is tu)).tooDeep st.maxNestingDepth is.depth with
      | some N =>
        obtain ⟨h1, h2⟩ := deep_some (cur_length hf) hd
        exact ErrK.bind (h.finishArray_deep h1 h2)
      | none =>
        obtain ⟨s1, h1, h2⟩ := h.finishArray ((deep_fits (cur_length hf)).1 hd)
        rw [M.bind_ok h1]
        exact back_sim h2
    | top d => cases td <;> first | exact hf.elim | trivial
    | obj => cases td <;> first | exact hf.elim | trivial
    | val => cases td <;> first | exact hf.elim | trivial
  | .objectMember i :: ps, c, td, s, h => by
    have hf := h.fit
    cases c with
    | obj up lu d =>
      cases td <;> first | exact hf.elim | skip
      rename_i ms tu
      have : Cursor.back st (.objectMember i :: ps) (cur (.obj up lu d) (.obj ms tu)) = match Cursor.finish st (cur (.obj up lu d) (.obj ms tu)) with
        | .ok _ c' => Cursor.back st ps c'
        | s => s := rfl
      rw [this, finish_members hf]
      show Sim st T un ((Reader.finishObject >>= fun _ => seekBackLoop ps).run s) _
      cases hd : (cur (.obj up lu d) (.obj ms tu)).tooDeep st.maxNestingDepth ms.depth with
      | some N =>
        obtain ⟨h1, h2⟩ := deep_some (cur_length hf) hd
        exact ErrK.bind (h.finishObject_deep h1 h2)
      | none =>
        obtain ⟨s1, h1, h2⟩ := h.finishObject ((deep_fits (cur_length hf)).1 hd)
        rw [M.bind_ok h1]
        exact back_sim h2
    | top d => cases td <;> first | exact hf.elim | trivial
    | arr => cases td <;> first | exact hf.elim | trivial
    | val => cases td <;> first | exact hf.elim | trivial

/-! ## The next value -/

/-- the method starts with a value -/
structure NV {α : Type} (m : R AbsSrc α) : Prop where
  err : ∀ {s e s'}, s.expectsMemberName = false → peekInternal.run s = .err e s' → m.run s = .err e s'
  stop : ∀ {s s'}, s.expectsMemberName = false → peekInternal.run s = .ok .arrayEnd s' → m.run s = .err (.unexpectedStructure .fewerElementsThanExpected (loc s')) s'

theorem NV.bind {α β : Type} {m : R AbsSrc α} {f : α → R AbsSrc β} (h : NV m) : NV (m >>= f) := ⟨fun h1 h2 => M.bind_err (h.err h1 h2), fun h1 h2 => M.bind_err (h.stop h1 h2)⟩

theorem NV.peek : NV Reader.peek := by
  constructor
  · intro s e s' h1 h2
    unfold Reader.peek
    rw [run_get, h1, if_neg (by exact Bool.false_ne_true), M.bind_err h2]
  · intro s s' h1 h2
    unfold Reader.peek
    rw [run_get, h1, if_neg (by exact Bool.false_ne_true), M.bind_ok h2]
    rfl

theorem NV.sev {t : ValueType} {chk : Bool} : NV (startExpectedValueType t chk) := by
  constructor
  · intro s e s' h1 h2
    unfold startExpectedValueType
    rw [run_get, h1, if_neg (by exact Bool.false_ne_true), M.bind_err h2]
  · intro s s' h1 h2
    unfold startExpectedValueType
    rw [run_get, h1, if_neg (by exact Bool.false_ne_true), M.bind_ok h2]
    rfl

theorem NV.skipValue : NV Reader.skipValue := by
  have hv : NV skipValueStart := NV.peek.bind
  constructor
  · intro s e s' h1 h2
    unfold Reader.skipValue
    rw [run_get, h1, if_neg (by exact Bool.false_ne_true), show fuel s = s.src.rest.length + 1 + 1 from rfl, skipLoop_top h1]
    exact M.bind_err (hv.err h1 h2)
  · intro s s' h1 h2
    unfold Reader.skipValue
    rw [run_get, h1, if_neg (by exact Bool.false_ne_true), show fuel s = s.src.rest.length + 1 + 1 from rfl, skipLoop_top h1]
    exact M.bind_err (hv.stop h1 h2)

theorem Rep.eof {d : List (Ws × Cst)} {t : TrailWs} (h : Rep st T (.top d) (.top (.nil t)) s) :
    ∃ (pos : Pos) (t' : TrailWs), t'.Ok st.allowComments ∧ s = stp st (.top d) pos none t'.bytes ∧ pos.over t'.bytes = (posOf (Ctx.top d).bytes).over t.bytes := by
  have ht : t.Ok st.allowComments := h.fit.1
  rcases h.at' with h1 | ⟨p, l', y, hp, hf, he, h1⟩ | ⟨d', t', hd, _, ht', h1⟩
  · exact ⟨_, t, ht, h1, rfl⟩
  · have h2 := pio_eof (st := st) (c := .top d) (pos := ⟨0, 0, 0⟩) (bs := t.bytes) (canPeek_lead hp) ⟨t, ht, rfl⟩
    have h3 := pio_complete (pos := ⟨0, 0, 0⟩) hp hf
    rw [← he] at h3
    rw [show (Todo.top (Tops.nil t)).bytes = t.bytes from rfl, h2] at h3
    cases h3
  · cases ht'
    exact ⟨_, ⟨[], none⟩, ⟨by simp [Ws.Ok], nofun⟩, h1, rfl⟩

/-- The specification for values -/
theorem withValue_sim {α : Type} {g : α → Cursor.Val} {m : R AbsSrc α} {f : JVal → Cursor.Step} (h : Rep st T c td s) (hm : NV m)
    (hv : ∀ {l v td'}, Heads c td l v td' → Sim st T g (m.run s) (f v.value)) : Sim st T g (m.run s) (Cursor.withValue st (cur c td) f) := by
  have hf := h.fit
  unfold Cursor.withValue
  cases c with
  | top d =>
    cases td <;> first | exact hf.elim | skip
    rename_i t
    by_cases hp : d = [] ∨ st.allowMultipleTopLevel = true
    · rw [if_neg (by rcases hp with rfl | hp <;> simp [Cursor.Cur.canValue, cur, *])]
      cases t with
      | cons w v rest => exact hv .top
      | nil t =>
        obtain ⟨pos, t', ht', rfl, hpos⟩ := h.eof
        have hpk := pio_eof (st := st) (c := .top d) (pos := pos) (bs := t'.bytes) (fun _ hd => by cases hd; exact hp) ⟨t', ht', rfl⟩
        by_cases hd : d = []
        · subst hd
          have he : peekInternal.run (stp st (.top []) pos none t'.bytes) = .err (.syntax .incompleteDocument (loc (stp st (.top []) (pos.over t'.bytes) none []))) (stp st (.top []) (pos.over t'.bytes) none []) :=
            (M.bind_ok hpk).trans rfl
          exact ⟨_, _, hm.err rfl he, rfl⟩
        · have hm' := hp.resolve_left hd
          have hne : d.isEmpty = false := by simpa using hd
          rw [show (cur (.top d) (.top (.nil t))).next = none from rfl]
          dsimp only
          rw [if_neg (by simp [cur, hd])]
          have he : peekInternal.run (stp st (.top d) pos none t'.bytes) = .err (.unexpectedStructure .fewerElementsThanExpected (loc (stp st (.top d) (pos.over t'.bytes) none []))) (stp st (.top d) (pos.over t'.bytes) none []) := by
            refine (M.bind_ok hpk).trans ?_
            dsimp only
            rw [run_get, if_pos (by simp [isBehindTopLevel, stp, Ctx.stack, Ctx.isEmpty, hm', hne])]
            rfl
          exact ⟨_, _, hm.err rfl he, rfl, rfl, .of ⟨h.doc, h.ok, h.depth, h.fit, .inr (.inr ⟨d, t, rfl, ⟨hd, hm'⟩, rfl, by rw [← hpos]⟩)⟩⟩
    · rw [if_pos (by
        have h1 : d ≠ [] := fun h => hp (.inl h)
        have h2 : st.allowMultipleTopLevel = false := by simpa using fun h => hp (.inr h)
        simp [Cursor.Cur.canValue, cur, h1, h2])]
      trivial
  | arr up lu d =>
    cases td <;> first | exact hf.elim | skip
    rename_i is tu
    rw [if_neg (by simp [Cursor.Cur.canValue, cur, Cursor.Cur.push, outer_str])]
    cases is with
    | cons sp v rest => exact hv .arr
    | nil cl =>
      refine ⟨_, _, hm.stop h.items.facts.1 h.items.peek.pi, rfl, rfl, .of (h.of_items ⟨h.items.slot, h.items.ok, .inr rfl⟩)⟩
  | obj up lu d =>
    cases td <;> first | exact hf.elim | skip
    rw [if_pos (by simp [Cursor.Cur.canValue, cur, Cursor.Cur.push])]
    trivial
  | val up lu d sp n =>
    cases td <;> first | exact hf.elim | skip
    rw [if_neg (by simp [Cursor.Cur.canValue, cur, Cursor.Cur.push, outer_str])]
    exact hv .val

end
end Verif.Abs
