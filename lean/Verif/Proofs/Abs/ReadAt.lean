import Verif.Proofs.Abs.Place
import Verif.Proofs.Cursor
/-! # Reading and skipping at the cursor lead to exactly the same state -/

namespace Verif.Abs
open Reader Utf8 Json

section
variable {st : Settings} {T : Tops} {c up : Ctx} {td td' tu : Todo} {l lu : Lead} {v : Cst} {s s' : St} {k : Cursor.Cur}

theorem heads_of_next {u : JVal} (h : Fit st c td) (hn : (cur c td).next = some u) : ∃ l v td', Heads c td l v td' ∧ v.value = u := by
  cases c with
  | top d =>
    cases td <;> first | exact h.elim | skip
    rename_i t
    cases t with
    | nil => cases hn
    | cons w v rest => cases hn; exact ⟨_, v, _, .top, rfl⟩
  | arr up lu d =>
    cases td <;> first | exact h.elim | skip
    rename_i is tu
    cases is with
    | nil => cases hn
    | cons sp v rest => cases hn; exact ⟨_, v, _, .arr, rfl⟩
  | obj up lu d =>
    cases td <;> first | exact h.elim | skip
    cases hn
  | val up lu d sp n =>
    cases td <;> first | exact h.elim | skip
    rename_i w1 w2 v ms tu
    cases hn
    exact ⟨_, v, _, .val, rfl⟩

mutual
theorem nums_value {cfg : Cfg} {P : Bytes → Prop} : ∀ v : Cst, v.Ok cfg → (∀ bs, IsNumber bs → asciiText bs ∈ Cursor.numbers v.value → P bs) → v.Nums P
  | .null, _, _ => trivial
  | .bool _, _, _ => trivial
  | .num bs, h, hp => hp bs h (by simp [Cst.value, Cursor.numbers])
  | .str _, _, _ => trivial
  | .arr is, h, hp => nums_items true is h fun bs hb hm => hp bs hb (by simpa [Cst.value, Cursor.numbers] using hm)
  | .obj ms, h, hp => nums_members true ms h fun bs hb hm => hp bs hb (by simpa [Cst.value, Cursor.numbers] using hm)
theorem nums_items {cfg : Cfg} {P : Bytes → Prop} (first : Bool) : ∀ is : Items, is.Ok cfg first → (∀ bs, IsNumber bs → asciiText bs ∈ Cursor.numbersItems is.values → P bs) → is.Nums P
  | .nil _, _, _ => trivial
  | .cons _ v rest, h, hp => ⟨nums_value v h.2.1 fun bs hb hm => hp bs hb (by simp [Items.values, Cursor.numbersItems, hm]),
      nums_items false rest h.2.2 fun bs hb hm => hp bs hb (by simp [Items.values, Cursor.numbersItems, hm])⟩
theorem nums_members {cfg : Cfg} {P : Bytes → Prop} (first : Bool) : ∀ ms : Members, ms.Ok cfg first → (∀ bs, IsNumber bs → asciiText bs ∈ Cursor.numbersMembers ms.values → P bs) → ms.Nums P
  | .nil _, _, _ => trivial
  | .cons _ n _ _ v rest, h, hp => ⟨nums_value v h.2.2.2.2.1 fun bs hb hm => hp bs hb (by simp [Members.values, Cursor.numbersMembers, hm]),
      nums_members false rest h.2.2.2.2.2 fun bs hb hm => hp bs hb (by simp [Members.values, Cursor.numbersMembers, hm])⟩
end

theorem Rep.readable (h : Rep st T c td s) (hh : Heads c td l v td') (hd : (cur c td).tooDeep st.maxNestingDepth (Cursor.depth v.value) = none)
    (hn : st.restrictNumberValues = true → ∀ t ∈ Cursor.numbers v.value, Cursor.unsupportedNumber t = false) : Readable st c v := by
  refine ⟨nums_value v (hh.value_ok h.fit) fun bs hb hm hr => ?_, ?_⟩
  · obtain ⟨h1, h2⟩ := restricted_iff.1 hr
    have := hn h1 _ hm
    rw [(unsupported_iff hb).2 h2] at this
    cases this
  · rw [depth_value] at hd
    exact (deep_fits (cur_length h.fit)).1 hd

theorem appT_bytes (xs : List (Ws × Cst)) (t : Tops) : t.bytes.length ≤ (appT xs t).bytes.length := by
  induction xs with
  | nil => exact Nat.le_refl _
  | cons x xs ih =>
    simp only [appT, Tops.bytes, List.length_append]
    omega

theorem docV_le : ∀ {c : Ctx} {td : Todo} {l : Lead} {V : Cst}, After st c td → c.Slot l → V.bytes.length ≤ (docV c td l V).bytes.length := by
  intro c
  induction c with
  | top d =>
    intro td l V h hs
    cases td <;> cases l <;> first | exact h.elim | exact hs.elim | skip
    refine Nat.le_trans ?_ (appT_bytes _ _)
    simp only [Tops.bytes, List.length_append]
    omega
  | arr up lu d ih =>
    intro td l V h hs
    cases td <;> cases l <;> first | exact h.elim | exact hs.elim | skip
    refine Nat.le_trans ?_ (ih h.2.2 h.1)
    simp only [Cst.bytes, appI_bytes, Items.bytes, List.length_append, List.length_cons]
    omega
  | obj => intro td l V h; exact h.elim
  | val up lu d sp n ih =>
    intro td l V h hs
    cases td <;> cases l <;> first | exact h.elim | exact hs.elim | skip
    refine Nat.le_trans ?_ (ih h.2.2 h.1)
    simp only [Cst.bytes, appM_bytes, Members.bytes, List.length_append, List.length_cons]
    omega

/-- the bytes of the next value are part of the document -/
theorem Rep.value_le (h : Rep st T c td s) (hh : Heads c td l v td') : v.bytes.length ≤ T.bytes.length := by
  have hf := h.fit
  rw [← h.doc]
  cases hh with
  | top =>
    refine Nat.le_trans ?_ (appT_bytes _ _)
    simp only [Tops.bytes, List.length_append]
    omega
  | arr =>
    refine Nat.le_trans ?_ (docV_le hf.2.2 hf.1)
    simp only [Cst.bytes, appI_bytes, Items.bytes, List.length_append, List.length_cons]
    omega
  | val =>
    refine Nat.le_trans ?_ (docV_le hf.2.2.2.2.2 hf.1)
    simp only [Cst.bytes, appM_bytes, Members.bytes, List.length_append, List.length_cons]
    omega

/-- Reading and skipping lead to the same state -/
theorem RepC.read_skip {u : JVal} {n : Nat} (h : RepC st T k s) (hk : k.canValue st.allowMultipleTopLevel = true) (hn : k.next = some u)
    (hd : k.tooDeep st.maxNestingDepth (Cursor.depth u) = none) : ∃ s', Reader.skipValue.run s = .ok () s' ∧ RepC st T k.advance s' ∧
      ((st.restrictNumberValues = true → ∀ t ∈ Cursor.numbers u, Cursor.unsupportedNumber t = false) → T.bytes.length ≤ n → (Prog.readValue n).toR.run s = .ok u s') := by
  rcases h with ⟨c, td, rfl, h⟩ | ⟨hs, _⟩
  · obtain ⟨l, v, td', hh, rfl⟩ := heads_of_next h.fit hn
    refine ⟨_, (h.front hh).skipValue ((deep_fits (cur_length h.fit)).1 (depth_value v ▸ hd)), ?_, fun hnum hle => ?_⟩
    · rw [hh.cur, ← cur_add hh]
      exact .of (h.behind hh)
    · exact (h.front hh).readValue (h.readable hh hd hnum) (Nat.le_trans (h.value_le hh) hle)
  · simp [Cursor.Cur.canValue, hs] at hk

theorem runOp_reads {lens : List Nat} : (runOp (.stringReader lens) : R AbsSrc Out).run s = (readsOp lens >>= fun rs => pure (.reads rs)).run s := by
  unfold readsOp
  show ((nextStringReader >>= _ : R AbsSrc Out)).run s = _
  rw [M.run_bind, M.run_bind, M.run_bind]
  cases nextStringReader.run s with
  | err => rfl
  | ok sr s1 =>
    dsimp only
    rw [M.run_bind, M.run_bind]
    cases (strReadsOk lens sr).run s1 <;> rfl

/-- reading a string completely with a string value reader -/
theorem Front.reads {x : Str} {pos : Pos} {r : Bytes} (h : Front st c s l (.str x) pos r) {lens : List Nat} (hlt : (enc x.text).length < lens.sum) :
    (readsOp lens).run s = .ok (Cursor.chunks lens (enc x.text)) (behind st c l (.str x) pos r) := by
  have h1 : Reader.nextStringReader.run s = .ok StrReader.new (active st c (pos.over [0x22]) (x.body ++ 0x22 :: r)) := by
    rw [h.peek.nextStringReader h.emn, str_split]
    exact nextStringReader_ok h.slot
  have hx : x.Ok := h.ok
  have hV : V x.text r (x.body ++ 0x22 :: r) := ⟨x.items, hx, rfl⟩
  have h2 := strReadsOk_wp (st := st) h.slot (lens := lens) (pos := pos.over [0x22]) (r := x.body ++ 0x22 :: r) SR.new
  unfold Wp at h2
  unfold readsOp
  rw [M.bind_ok h1]
  cases hrun : (strReadsOk lens StrReader.new).run (active st c (pos.over [0x22]) (x.body ++ 0x22 :: r)) with
  | err e s1 =>
    rw [hrun] at h2
    exact absurd hV (h2.2 _ _)
  | ok res s1 =>
    rw [hrun] at h2
    obtain ⟨is, cs, his, hrs, hcase⟩ := h2
    rw [chunks_pieces]
    rcases hcase with ⟨_, _, hlen, r', hr', hs1⟩ | ⟨_, hlen, r', hr', hs1⟩
    · rw [hr'] at hV
      obtain ⟨cs', hcs, hV'⟩ := hV.items his
      obtain ⟨rfl, hrr⟩ := hV'.quote
      rw [List.append_nil] at hcs
      rw [List.nil_append] at hlen hrs
      subst hcs
      refine (M.bind_ok hrun).trans ?_
      have hbody : x.body ++ [0x22] = is.flatMap StrItem.bytes ++ [0x22] := by
        rw [hrr] at hr'
        have e : (x.body ++ [0x22]) ++ r' = (is.flatMap StrItem.bytes ++ [0x22]) ++ r' := by simpa using hr'
        exact List.append_cancel_right e
      have e1 := hs1 (.str x)
      rw [← hbody, ← hrr] at e1
      unfold Abs.behind
      rw [show (Cst.str x).bytes = [0x22] ++ (x.body ++ [0x22]) from rfl, ← Pos.over_over _ (plain_cons (by decide) plain_nil : Plain [0x22]).noBreak.left, e1, ← hrs]
      rfl
    · exfalso
      rw [hr'] at hV
      obtain ⟨cs', hcs, hV'⟩ := hV.items his
      rw [List.nil_append] at hlen
      rw [hcs, enc_append, List.length_append] at hlt
      omega

/-- All ways of reading a string lead to the same state -/
theorem RepC.string {t : Text} (h : RepC st T k s) (hk : k.canValue st.allowMultipleTopLevel = true) (hn : k.next = some (.str t)) :
    ∃ s', Reader.skipValue.run s = .ok () s' ∧ Reader.nextString.run s = .ok t s' ∧ Reader.nextStr.run s = .ok t s' ∧
      ∀ lens : List Nat, (enc t).length < lens.sum → (readsOp lens).run s = .ok (Cursor.chunks lens (enc t)) s' := by
  rcases h with ⟨c, td, rfl, h⟩ | ⟨hs, _⟩
  · obtain ⟨l, v, td', hh, hv⟩ := heads_of_next h.fit hn
    cases v with
    | str x =>
      cases hv
      exact ⟨_, (h.front hh).skipValue (fun n hm => h.depth n hm), (h.front hh).nextString, (h.front hh).nextStr, fun lens hlt => (h.front hh).reads hlt⟩
    | null | bool | num | arr | obj => cases hv
  · simp [Cursor.Cur.canValue, hs] at hk

/-- All ways of reading a name lead to the same state -/
theorem RepC.name {last n : Text} {u : JVal} {rest : List (Text × JVal)} {fs : List Cursor.Frame} (h : RepC st T k s) (hs : k.str = false) (hk : k.frames = .names last ((n, u) :: rest) :: fs) :
    ∃ s', Reader.skipName.run s = .ok () s' ∧ Reader.nextName.run s = .ok n s' ∧ Reader.nextNameOwned.run s = .ok n s' ∧ RepC st T { k with frames := .value n u rest :: fs } s' := by
  rcases h with ⟨c, td, rfl, h⟩ | ⟨hs', _⟩
  · have hf := h.fit
    cases c with
    | obj up lu dm =>
      cases td <;> first | exact hf.elim | skip
      rename_i ms tu
      cases ms with
      | nil => cases hk
      | cons sp x w1 w2 v ms =>
        cases hk
        exact ⟨_, h.members.skipName, h.members.nextName, h.members.nextNameOwned, .of h.named⟩
    | top | arr | val => cases td <;> first | exact hf.elim | cases hk
  · rw [hs] at hs'; cases hs'

end
end Verif.Abs
