import Verif.Proofs.Abs.Doc
import Verif.Spec.Cursor
/-! # The rest of a document, and the place of a reader in a document -/

namespace Verif.Abs
open Reader Utf8 Json

/-- The part of a document behind a context -/
inductive Todo where
  | top (t : Tops)
  | arr (is : Items) (up : Todo)
  | obj (ms : Members) (up : Todo)
  | val (w1 w2 : Ws) (v : Cst) (ms : Members) (up : Todo)

def Todo.bytes : Todo → Bytes
  | .top t => t.bytes
  | .arr is up => is.bytes ++ up.bytes
  | .obj ms up => ms.bytes ++ up.bytes
  | .val w1 w2 v ms up => (Lead.colon w1 w2).bytes ++ (v.bytes ++ (ms.bytes ++ up.bytes))

def appI : List (Sep × Cst) → Items → Items
  | [], is => is
  | x :: xs, is => .cons x.1 x.2 (appI xs is)

def appM : List Mem → Members → Members
  | [], ms => ms
  | x :: xs, ms => .cons x.sep x.name x.w1 x.w2 x.v (appM xs ms)

theorem appI_append (xs : List (Sep × Cst)) (sp : Sep) (v : Cst) (is : Items) : appI (xs ++ [(sp, v)]) is = appI xs (.cons sp v is) := by
  induction xs with
  | nil => rfl
  | cons x xs ih => simp [appI, ih]

theorem appM_append (xs : List Mem) (m : Mem) (ms : Members) : appM (xs ++ [m]) ms = appM xs (.cons m.sep m.name m.w1 m.w2 m.v ms) := by
  induction xs with
  | nil => rfl
  | cons x xs ih => simp [appM, ih]

theorem appI_bytes (xs : List (Sep × Cst)) (is : Items) : (appI xs is).bytes = xs.flatMap itemBytes ++ is.bytes := by
  induction xs with
  | nil => rfl
  | cons x xs ih => simp [appI, Items.bytes, ih, itemBytes]

theorem appM_bytes (xs : List Mem) (ms : Members) : (appM xs ms).bytes = xs.flatMap Mem.bytes ++ ms.bytes := by
  induction xs with
  | nil => rfl
  | cons x xs ih => simp [appM, Members.bytes, ih, Mem.bytes]

theorem appI_ok {cfg : Cfg} {xs : List (Sep × Cst)} {is : Items} {first : Bool} (h : ItemsOk cfg first xs) (hi : is.Ok cfg (first && xs.isEmpty)) : (appI xs is).Ok cfg first := by
  induction xs generalizing first with
  | nil => rw [show (first && ([] : List (Sep × Cst)).isEmpty) = first by simp] at hi; exact hi
  | cons x xs ih => exact ⟨h.1, h.2.1, ih h.2.2 (by simpa using hi)⟩

theorem appM_ok {cfg : Cfg} {xs : List Mem} {ms : Members} {first : Bool} (h : MemsOk cfg first xs) (hi : ms.Ok cfg (first && xs.isEmpty)) : (appM xs ms).Ok cfg first := by
  induction xs generalizing first with
  | nil => rw [show (first && ([] : List Mem).isEmpty) = first by simp] at hi; exact hi
  | cons x xs ih => exact ⟨h.1.1, h.1.2.1, h.1.2.2.1, h.1.2.2.2.1, h.1.2.2.2.2, ih h.2 (by simpa using hi)⟩

theorem isEmpty_app {α : Type} {xs : List α} {x : α} : (xs ++ [x]).isEmpty = false := by cases xs <;> rfl

/-- The innermost open array or object, completely -/
def whole : Ctx → Todo → Cst
  | .arr _ _ d, .arr is _ => .arr (appI d is)
  | .obj _ _ d, .obj ms _ => .obj (appM d ms)
  | .val _ _ d sp n, .val w1 w2 v ms _ => .obj (appM d (.cons sp n w1 w2 v ms))
  | _, _ => .null

/-- The cursor in front of the value `V`; `td` is what follows the value -/
def outer : Ctx → Todo → Lead → Cst → Cursor.Cur
  | .top d, .top t, _, V => ⟨[], !d.isEmpty, V.value :: t.values, false⟩
  | .arr up lu d, .arr is tu, l, V => (outer up tu lu (whole ((Ctx.arr up lu d).add l V) (.arr is tu))).push (.array d.length (V.value :: is.values))
  | .val up lu d sp n, .obj ms tu, l, V => (outer up tu lu (whole ((Ctx.val up lu d sp n).add l V) (.obj ms tu))).push (.value n.text V.value ms.values)
  | _, _, _, _ => ⟨[], false, [], false⟩

/-- The cursor -/
def cur : Ctx → Todo → Cursor.Cur
  | .top d, .top t => ⟨[], !d.isEmpty, t.values, false⟩
  | .arr up lu d, .arr is tu => (outer up tu lu (.arr (appI d is))).push (.array d.length is.values)
  | .obj up lu d, .obj ms tu => (outer up tu lu (.obj (appM d ms))).push (.names (lastName d) ms.values)
  | .val up lu d sp n, .val w1 w2 v ms tu => (outer up tu lu (.obj (appM d (.cons sp n w1 w2 v ms)))).push (.value n.text v.value ms.values)
  | _, _ => ⟨[], false, [], false⟩

def appT : List (Ws × Cst) → Tops → Tops
  | [], t => t
  | x :: xs, t => .cons x.1 x.2 (appT xs t)

theorem appT_append (xs : List (Ws × Cst)) (w : Ws) (v : Cst) (t : Tops) : appT (xs ++ [(w, v)]) t = appT xs (.cons w v t) := by
  induction xs with
  | nil => rfl
  | cons x xs ih => simp [appT, ih]

/-- The document, with the value `V` behind the context -/
def docV : Ctx → Todo → Lead → Cst → Tops
  | .top d, .top t, .ws w, V => appT d (.cons w V t)
  | .arr up lu d, .arr is tu, .sep sp, V => docV up tu lu (.arr (appI d (.cons sp V is)))
  | .val up lu d sp n, .obj ms tu, .colon w1 w2, V => docV up tu lu (.obj (appM d (.cons sp n w1 w2 V ms)))
  | _, _, _, _ => .nil ⟨[], none⟩

/-- The document -/
def doc : Ctx → Todo → Tops
  | .top d, .top t => appT d t
  | .arr up lu d, .arr is tu => docV up tu lu (.arr (appI d is))
  | .obj up lu d, .obj ms tu => docV up tu lu (.obj (appM d ms))
  | .val up lu d sp n, .val w1 w2 v ms tu => docV up tu lu (.obj (appM d (.cons sp n w1 w2 v ms)))
  | _, _ => .nil ⟨[], none⟩

def topsCount : Tops → Nat
  | .nil _ => 0
  | .cons _ _ rest => topsCount rest + 1

section
variable (st : Settings)

/-- `td` can follow the context when an array or object was added to it -/
def After : Ctx → Todo → Prop
  | .top d, .top t => t.Ok (cfgOf st) false ∧ (st.allowMultipleTopLevel = true ∨ (d.length + topsCount t = 0))
  | .arr up lu _, .arr is tu => up.Slot lu ∧ is.Ok (cfgOf st) false ∧ After up tu
  | .val up lu _ _ _, .obj ms tu => up.Slot lu ∧ ms.Ok (cfgOf st) false ∧ After up tu
  | _, _ => False

/-- `td` can follow the context -/
def Fit : Ctx → Todo → Prop
  | .top d, .top t => t.Ok (cfgOf st) (bareLast d) ∧ (st.allowMultipleTopLevel = true ∨ d.length + topsCount t ≤ 1)
  | .arr up lu d, .arr is tu => up.Slot lu ∧ is.Ok (cfgOf st) d.isEmpty ∧ After st up tu
  | .obj up lu d, .obj ms tu => up.Slot lu ∧ ms.Ok (cfgOf st) d.isEmpty ∧ After st up tu
  | .val up lu _ _ _, .val w1 w2 v ms tu => up.Slot lu ∧ w1.Ok st.allowComments ∧ w2.Ok st.allowComments ∧ v.Ok (cfgOf st) ∧ ms.Ok (cfgOf st) false ∧ After st up tu
  | _, _ => False

/-- The reader is at the place -/
structure Rep (T : Tops) (c : Ctx) (td : Todo) (s : St) : Prop where
  doc : doc c td = T
  ok : c.Ok st
  depth : DepthOk st c
  fit : Fit st c td
  at' : s = stp st c (posOf c.bytes) none td.bytes ∨
    (∃ p l y, c.LeadFor st p l ∧ Follow p y ∧ td.bytes = l.bytes ++ (tokBytes p ++ y) ∧ s = stp st c ((posOf c.bytes).over l.bytes) (some p) y) ∨
    (∃ d t, c = .top d ∧ (d ≠ [] ∧ st.allowMultipleTopLevel = true) ∧ td = .top (.nil t) ∧ s = stp st c ((posOf c.bytes).over t.bytes) none [])
end

/-- The next value -/
inductive Heads : Ctx → Todo → Lead → Cst → Todo → Prop
  | top {d : List (Ws × Cst)} {w : Ws} {v : Cst} {rest : Tops} : Heads (.top d) (.top (.cons w v rest)) (.ws w) v (.top rest)
  | arr {up : Ctx} {lu : Lead} {d : List (Sep × Cst)} {sp : Sep} {v : Cst} {rest : Items} {tu : Todo} : Heads (.arr up lu d) (.arr (.cons sp v rest) tu) (.sep sp) v (.arr rest tu)
  | val {up : Ctx} {lu : Lead} {d : List Mem} {sp : Sep} {n : Str} {w1 w2 : Ws} {v : Cst} {ms : Members} {tu : Todo} :
      Heads (.val up lu d sp n) (.val w1 w2 v ms tu) (.colon w1 w2) v (.obj ms tu)

section
variable {st : Settings} {T : Tops} {c up : Ctx} {td td' tu : Todo} {l lu : Lead} {v V : Cst} {s s' : St} {d : List (Sep × Cst)} {dm : List Mem} {dt : List (Ws × Cst)} {is : Items} {ms : Members}

theorem Heads.slot (h : Heads c td l v td') : c.Slot l := by cases h <;> trivial

theorem Heads.bytes (h : Heads c td l v td') : td.bytes = l.bytes ++ (v.bytes ++ td'.bytes) := by
  cases h <;> simp [Todo.bytes, Tops.bytes, Items.bytes, Lead.bytes]

theorem Heads.cur (h : Heads c td l v td') : cur c td = outer c td' l v := by
  cases h with
  | top => rfl
  | arr => simp only [Abs.cur, outer, whole, Ctx.add, Items.values, appI_append]
  | val => simp only [Abs.cur, outer, whole, Ctx.add, appM_append]

theorem Heads.next (h : Heads c td l v td') : (Abs.cur c td).next = some v.value := by cases h <;> rfl

theorem Heads.doc (h : Heads c td l v td') : doc c td = docV c td' l v := by cases h <;> rfl

theorem Heads.doc_add (h : Heads c td l v td') : Abs.doc (c.add l v) td' = Abs.doc c td := by
  cases h with
  | top => exact appT_append ..
  | arr => simp only [Ctx.add, Abs.doc, appI_append]
  | val => simp only [Ctx.add, Abs.doc, appM_append]

theorem cur_add (h : Heads c td l v td') : cur (c.add l v) td' = (outer c td' l v).advance := by
  cases h with
  | top => simp [Ctx.add, cur, outer, Cursor.Cur.advance]
  | arr => simp [Ctx.add, cur, outer, Cursor.Cur.advance, Cursor.Cur.push, whole]
  | val => simp [Ctx.add, cur, outer, Cursor.Cur.advance, Cursor.Cur.push, whole, lastName_append]

theorem Heads.value_ok (hf : Fit st c td) (h : Heads c td l v td') : v.Ok (cfgOf st) := by
  cases h with
  | top => exact hf.1.2.2.1
  | arr => exact hf.2.1.2.1
  | val => exact hf.2.2.2.1

theorem Heads.sepOk (hf : Fit st c td) (h : Heads c td l v td') (hb : v.isBare = true) : SepOk td'.bytes := by
  cases h with
  | top =>
    have := hf.1.2.2.2
    rw [hb] at this
    exact tops_sepOk this
  | arr => exact items_sepOk hf.2.1.2.2
  | val => exact members_sepOk hf.2.2.2.2.1

theorem Heads.lead (hf : Fit st c td) (h : Heads c td l v td') : c.LeadFor st (startOf v) l := by
  cases h with
  | @top d w v rest =>
    refine ⟨isValue_start v, hf.1.1, ?_, hf.1.2.1⟩
    rcases hf.2 with h | h
    · exact .inr h
    · left
      simp only [topsCount] at h
      exact List.eq_nil_of_length_eq_zero (by omega)
  | arr => exact .inr ⟨isValue_start v, hf.2.1.1⟩
  | val => exact ⟨isValue_start v, hf.2.1, hf.2.2.1⟩

theorem Heads.fit (hf : Fit st c td) (h : Heads c td l v td') : Fit st (c.add l v) td' := by
  cases h with
  | @top d w v rest =>
    refine ⟨?_, ?_⟩
    · rw [show bareLast (d ++ [(w, v)]) = v.isBare by simp [bareLast]]
      exact hf.1.2.2.2
    · refine hf.2.imp id fun h => ?_
      simp only [topsCount] at h
      simp
      omega
  | arr => exact ⟨hf.1, isEmpty_app ▸ hf.2.1.2.2, hf.2.2⟩
  | val => exact ⟨hf.1, isEmpty_app ▸ hf.2.2.2.2.1, hf.2.2.2.2.2⟩

theorem Heads.after (hf : Fit st c td) (h : Heads c td l v td') (hb : v.isBare = false) : After st c td' := by
  cases h with
  | top =>
    have h1 := hf.1.2.2.2
    rw [hb] at h1
    exact ⟨h1, hf.2.imp id fun h => by simp only [topsCount] at h; omega⟩
  | arr => exact ⟨hf.1, hf.2.1.2.2, hf.2.2⟩
  | val => exact ⟨hf.1, hf.2.2.2.2.1, hf.2.2.2.2.2⟩

/-- the context of the value determines the todo behind it -/
theorem After.fit (h : After st c td) (hs : c.Slot l) (hb : V.isBare = false) : Fit st (c.add l V) td := by
  cases c <;> cases td <;> cases l <;> first | exact hs.elim | exact h.elim | skip
  · refine ⟨?_, h.2.imp id fun h => by simp; omega⟩
    rw [show bareLast _ = V.isBare from bareLast_append _ _, hb]
    exact h.1
  · exact ⟨h.1, isEmpty_app ▸ h.2.1, h.2.2⟩
  · exact ⟨h.1, isEmpty_app ▸ h.2.1, h.2.2⟩

theorem After.cur (h : After st c td) (hs : c.Slot l) : Abs.cur (c.add l V) td = (outer c td l V).advance := by
  cases c <;> cases td <;> cases l <;> first | exact hs.elim | exact h.elim | skip
  · simp [Ctx.add, Abs.cur, outer, Cursor.Cur.advance]
  · simp [Ctx.add, Abs.cur, outer, Cursor.Cur.advance, Cursor.Cur.push, whole]
  · simp [Ctx.add, Abs.cur, outer, Cursor.Cur.advance, Cursor.Cur.push, whole, lastName_append]

theorem After.doc (h : After st c td) (hs : c.Slot l) : Abs.doc (c.add l V) td = docV c td l V := by
  cases c <;> cases td <;> cases l <;> first | exact hs.elim | exact h.elim | skip
  · exact appT_append ..
  · simp only [Ctx.add, Abs.doc, docV, appI_append]
  · simp only [Ctx.add, Abs.doc, docV, appM_append]

theorem outer_str (c : Ctx) : ∀ {td l V}, (outer c td l V).str = false := by
  induction c with
  | top => intro td l V; cases td <;> rfl
  | arr up lu d ih => intro td l V; cases td <;> first | rfl | exact ih
  | obj => intro td l V; cases td <;> rfl
  | val up lu d sp n ih => intro td l V; cases td <;> first | rfl | exact ih

theorem cur_str : (cur c td).str = false := by
  cases c <;> cases td <;> first | rfl | exact outer_str _

theorem outer_length (c : Ctx) : ∀ {td l V}, After st c td → (outer c td l V).frames.length = c.stack.length := by
  induction c with
  | top => intro td l V h; cases td <;> first | rfl | exact h.elim
  | arr up lu d ih => intro td l V h; cases td <;> first | exact h.elim | exact congrArg (· + 1) (ih h.2.2)
  | obj => intro td l V h; exact h.elim
  | val up lu d sp n ih => intro td l V h; cases td <;> first | exact h.elim | exact congrArg (· + 1) (ih h.2.2)

theorem cur_length (h : Fit st c td) : (cur c td).frames.length = c.stack.length := by
  cases c <;> cases td <;> first | rfl | exact h.elim | skip
  · exact congrArg (· + 1) (outer_length _ h.2.2)
  · exact congrArg (· + 1) (outer_length _ h.2.2)
  · exact congrArg (· + 1) (outer_length _ h.2.2.2.2.2)

theorem outer_path (c : Ctx) : ∀ {td l V}, After st c td → (outer c td l V).frames.map Cursor.Frame.piece = c.path := by
  induction c with
  | top => intro td l V h; cases td <;> first | rfl | exact h.elim
  | arr up lu d ih => intro td l V h; cases td <;> first | exact h.elim | exact congrArg (_ :: ·) (ih h.2.2)
  | obj => intro td l V h; exact h.elim
  | val up lu d sp n ih => intro td l V h; cases td <;> first | exact h.elim | exact congrArg (_ :: ·) (ih h.2.2)

theorem cur_path (h : Fit st c td) : (cur c td).frames.map Cursor.Frame.piece = c.path := by
  cases c <;> cases td <;> first | rfl | exact h.elim | skip
  · exact congrArg (_ :: ·) (outer_path _ h.2.2)
  · exact congrArg (_ :: ·) (outer_path _ h.2.2)
  · exact congrArg (_ :: ·) (outer_path _ h.2.2.2.2.2)

/-! ## Positions -/

theorem posOf_add (hc : c.Ok st) (hs : c.Slot l) (hv : V.Ok (cfgOf st)) : posOf (c.add l V).bytes = ((posOf c.bytes).over l.bytes).over V.bytes := by
  rw [Ctx.add_bytes hs, posOf_over (Ctx.noCr hc).noSplit, posOf_over (noSplit_head (value_head hv)), List.append_assoc]

theorem posOf_open (hc : c.Ok st) {b : UInt8} (hb : b ≠ 0x0A) : posOf (c.bytes ++ (l.bytes ++ [b])) = ((posOf c.bytes).over l.bytes).over [b] := by
  rw [posOf_over (Ctx.noCr hc).noSplit, posOf_over (noSplit_head (by simpa using hb)), List.append_assoc]

/-! ## The next value -/

namespace Rep

theorem front (h : Rep st T c td s) (hh : Heads c td l v td') : Front st c s l v ((posOf c.bytes).over l.bytes) td'.bytes := by
  have hl := hh.lead h.fit
  have hv := hh.value_ok h.fit
  have hb := hh.sepOk h.fit
  rcases h.at' with h1 | ⟨p, l', y, hp, hf, he, h1⟩ | ⟨d, t, rfl, _, rfl, h1⟩
  · rw [h1, hh.bytes]
    exact Front.of_none hl hv hb
  · rw [hh.bytes, start_tail, List.append_assoc] at he
    obtain ⟨rfl, rfl⟩ := tok_unique hl hp (follow_start hv hb) hf he
    rw [h1, ← List.append_cancel_right he]
    exact Front.of_peeked hl hv hb
  · cases hh

theorem peeked (h : Rep st T c td s) (hh : Heads c td l v td') : Rep st T c td (stp st c ((posOf c.bytes).over l.bytes) (some (startOf v)) (tailOf v ++ td'.bytes)) :=
  ⟨h.doc, h.ok, h.depth, h.fit, .inr (.inl ⟨_, l, _, hh.lead h.fit, follow_start (hh.value_ok h.fit) (hh.sepOk h.fit), by rw [hh.bytes, start_tail, List.append_assoc], rfl⟩)⟩

theorem depth_add {c : Ctx} (h : DepthOk st c) : DepthOk st (c.add l v) := by
  intro n hn
  rw [Ctx.add_stack]
  exact h n hn

theorem behind (h : Rep st T c td s) (hh : Heads c td l v td') : Rep st T (c.add l v) td' (Abs.behind st c l v ((posOf c.bytes).over l.bytes) td'.bytes) := by
  have hv := hh.value_ok h.fit
  refine ⟨hh.doc_add.trans h.doc, h.ok.add (hh.lead h.fit) (isValue_start v) hv, depth_add h.depth, hh.fit h.fit, .inl ?_⟩
  rw [posOf_add h.ok hh.slot hv]
  rfl

theorem items (h : Rep st T (.arr up lu d) (.arr is tu) s) : AtItems st up lu d is (posOf (Ctx.arr up lu d).bytes) tu.bytes s := by
  refine ⟨h.fit.1, h.fit.2.1, ?_⟩
  rcases h.at' with h1 | ⟨p, l', y, hp, hf, he, h1⟩ | ⟨_, t, ⟨⟩, _⟩
  · exact .inl h1
  · right
    rw [show (Todo.arr is tu).bytes = is.bytes ++ tu.bytes from rfl, items_split] at he
    obtain ⟨rfl, rfl⟩ := tok_unique (items_lead h.fit.2.1) hp (items_follow h.fit.2.1) hf he
    rw [h1, ← List.append_cancel_right he]
    rfl

theorem members (h : Rep st T (.obj up lu dm) (.obj ms tu) s) : AtMembers st up lu dm ms (posOf (Ctx.obj up lu dm).bytes) tu.bytes s := by
  refine ⟨h.fit.1, h.fit.2.1, ?_⟩
  rcases h.at' with h1 | ⟨p, l', y, hp, hf, he, h1⟩ | ⟨_, t, ⟨⟩, _⟩
  · exact .inl h1
  · right
    rw [show (Todo.obj ms tu).bytes = ms.bytes ++ tu.bytes from rfl, members_split] at he
    obtain ⟨rfl, rfl⟩ := tok_unique (members_lead h.fit.2.1) hp members_follow hf he
    rw [h1, ← List.append_cancel_right he]
    rfl

theorem of_items (h : Rep st T (.arr up lu d) (.arr is tu) s) (hi : AtItems st up lu d is (posOf (Ctx.arr up lu d).bytes) tu.bytes s') : Rep st T (.arr up lu d) (.arr is tu) s' := by
  refine ⟨h.doc, h.ok, h.depth, h.fit, ?_⟩
  rcases hi.at' with h1 | h1
  · exact .inl h1
  · exact .inr (.inl ⟨_, .sep (headSepI is), _, items_lead h.fit.2.1, items_follow h.fit.2.1, items_split is tu.bytes, h1⟩)

theorem of_members (h : Rep st T (.obj up lu dm) (.obj ms tu) s) (hi : AtMembers st up lu dm ms (posOf (Ctx.obj up lu dm).bytes) tu.bytes s') : Rep st T (.obj up lu dm) (.obj ms tu) s' := by
  refine ⟨h.doc, h.ok, h.depth, h.fit, ?_⟩
  rcases hi.at' with h1 | h1
  · exact .inl h1
  · exact .inr (.inl ⟨_, .sep (headSepM ms), _, members_lead h.fit.2.1, members_follow, members_split ms tu.bytes, h1⟩)

theorem emn (h : Rep st T c td s) : s.expectsMemberName = c.emn := by
  rcases h.at' with h1 | ⟨p, l', y, hp, hf, he, h1⟩ | ⟨d, t, rfl, _, _, h1⟩ <;> rw [h1] <;> rfl
theorem stack (h : Rep st T c td s) : s.stack = c.stack := by
  rcases h.at' with h1 | ⟨p, l', y, hp, hf, he, h1⟩ | ⟨d, t, rfl, _, _, h1⟩ <;> rw [h1] <;> rfl
theorem path (h : Rep st T c td s) : s.path = if st.trackPath then some c.path else none := by
  rcases h.at' with h1 | ⟨p, l', y, hp, hf, he, h1⟩ | ⟨d, t, rfl, _, _, h1⟩ <;> rw [h1] <;> rfl
theorem sra (h : Rep st T c td s) : s.stringReaderActive = false := by
  rcases h.at' with h1 | ⟨p, l', y, hp, hf, he, h1⟩ | ⟨d, t, rfl, _, _, h1⟩ <;> rw [h1] <;> rfl

/-! ## Begin and end of arrays and objects -/

theorem beginArray (h : Rep st T c td s) (hh : Heads c td l (.arr is) td') (ht : tooDeep st c = none) :
    ∃ s', Reader.beginArray.run s = .ok () s' ∧ Rep st T (.arr c l []) (.arr is td') s' := by
  obtain ⟨s', h1, h2⟩ := (h.front hh).beginArray ht
  refine ⟨s', h1, hh.doc.symm.trans h.doc, ⟨h.ok, (hh.lead h.fit).value (isValue_start _) rfl, trivial⟩, ?_, ⟨hh.slot, hh.value_ok h.fit, hh.after h.fit rfl⟩, .inl ?_⟩
  · intro n hn
    unfold Abs.tooDeep at ht
    rw [hn] at ht
    simp only [ite_eq_right_iff, reduceCtorEq, imp_false] at ht
    simp [Ctx.stack]; omega
  · have := (h.front hh).beginArray ht
    have h3 := (h.front hh).peek.beginArray (h.front hh).emn
    rw [h1] at h3
    have h4 := beginArray_ok (st := st) (pos := (posOf c.bytes).over l.bytes) (r := tailOf (.arr is) ++ td'.bytes) hh.slot ht
    have h5 := h3.trans h4
    injection h5 with _ h5
    rw [h5, ← posOf_open h.ok (by decide)]
    rfl

theorem beginObject (h : Rep st T c td s) (hh : Heads c td l (.obj ms) td') (ht : tooDeep st c = none) :
    ∃ s', Reader.beginObject.run s = .ok () s' ∧ Rep st T (.obj c l []) (.obj ms td') s' := by
  obtain ⟨s', h1, h2⟩ := (h.front hh).beginObject ht
  refine ⟨s', h1, hh.doc.symm.trans h.doc, ⟨h.ok, (hh.lead h.fit).value (isValue_start _) rfl, trivial⟩, ?_, ⟨hh.slot, hh.value_ok h.fit, hh.after h.fit rfl⟩, .inl ?_⟩
  · intro n hn
    unfold Abs.tooDeep at ht
    rw [hn] at ht
    simp only [ite_eq_right_iff, reduceCtorEq, imp_false] at ht
    simp [Ctx.stack]; omega
  · have h3 := (h.front hh).peek.beginObject (h.front hh).emn
    rw [h1] at h3
    have h4 := beginObject_ok (st := st) (pos := (posOf c.bytes).over l.bytes) (r := tailOf (.obj ms) ++ td'.bytes) hh.slot ht
    have h5 := h3.trans h4
    injection h5 with _ h5
    rw [h5, ← posOf_open h.ok (by decide)]
    rfl

theorem up_depth {c' : Ctx} (h : DepthOk st c') (hc : c.stack.length ≤ c'.stack.length) : DepthOk st c := fun n hn => Nat.le_trans hc (h n hn)

theorem endArray {cl : Sep} (h : Rep st T (.arr up lu d) (.arr (.nil cl) tu) s) :
    ∃ s', Reader.endArray.run s = .ok () s' ∧ Rep st T (up.add lu (.arr (appI d (.nil cl)))) tu s' := by
  refine ⟨_, h.items.endArray (.arr (appI d (.nil cl))), ?_⟩
  have hs := h.fit.1
  have hV : (Cst.arr (appI d (.nil cl))).Ok (cfgOf st) := appI_ok h.ok.2.2 (by simpa using h.fit.2.1)
  refine ⟨(h.fit.2.2.doc hs).trans h.doc, h.ok.1.add h.ok.2.1 rfl hV, depth_add (up_depth h.depth (Nat.le_succ _)), h.fit.2.2.fit hs rfl, .inl ?_⟩
  congr 1
  rw [posOf_over (Ctx.noCr h.ok).noSplit, Ctx.add_bytes hs]
  simp [Ctx.bytes, Cst.bytes, appI_bytes]

theorem endObject {cl : Sep} (h : Rep st T (.obj up lu dm) (.obj (.nil cl) tu) s) :
    ∃ s', Reader.endObject.run s = .ok () s' ∧ Rep st T (up.add lu (.obj (appM dm (.nil cl)))) tu s' := by
  refine ⟨_, h.members.endObject (.obj (appM dm (.nil cl))), ?_⟩
  have hs := h.fit.1
  have hV : (Cst.obj (appM dm (.nil cl))).Ok (cfgOf st) := appM_ok h.ok.2.2 (by simpa using h.fit.2.1)
  refine ⟨(h.fit.2.2.doc hs).trans h.doc, h.ok.1.add h.ok.2.1 rfl hV, depth_add (up_depth h.depth (Nat.le_succ _)), h.fit.2.2.fit hs rfl, .inl ?_⟩
  congr 1
  rw [posOf_over (Ctx.noCr h.ok).noSplit, Ctx.add_bytes hs]
  simp [Ctx.bytes, Cst.bytes, appM_bytes]

/-! ## Names -/

theorem named {sp : Sep} {x : Str} {w1 w2 : Ws} {rest : Members} (h : Rep st T (.obj up lu dm) (.obj (.cons sp x w1 w2 v rest) tu) s) :
    Rep st T (.val up lu dm sp x) (.val w1 w2 v rest tu)
      (stp st (.val up lu dm sp x) ((posOf (Ctx.obj up lu dm).bytes).over (sp.bytes ++ x.bytes)) none ((Lead.colon w1 w2).bytes ++ (v.bytes ++ (rest.bytes ++ tu.bytes)))) := by
  have hk := h.fit.2.1
  refine ⟨h.doc, ⟨h.ok.1, h.ok.2.1, h.ok.2.2, hk.1, hk.2.1⟩, h.depth, ⟨h.fit.1, hk.2.2.1, hk.2.2.2.1, hk.2.2.2.2.1, hk.2.2.2.2.2, h.fit.2.2⟩, .inl ?_⟩
  rw [posOf_over (Ctx.noCr h.ok).noSplit]
  simp [Ctx.bytes, Todo.bytes]

end Rep

theorem cur_named {sp : Sep} {x : Str} {w1 w2 : Ws} {rest : Members} :
    cur (.val up lu dm sp x) (.val w1 w2 v rest tu) = (outer up tu lu (.obj (appM dm (.cons sp x w1 w2 v rest)))).push (.value x.text v.value rest.values) := rfl

end
end Verif.Abs
