import Verif.Proofs.Abs.Front
/-! # Walking over the elements of arrays and objects -/

namespace Verif.Abs
open Reader Utf8 Json

section
variable {st : Settings} {c up : Ctx} {l lu : Lead} {v : Cst} {pos : Pos} {r : Bytes} {s s' : St} {n : Nat} {done : List (Sep × Cst)} {dm : List Mem} {is : Items} {ms : Members}

/-- separator in front of the next item or of the closing bracket -/
def headSepI : Items → Sep
  | .nil cl => cl
  | .cons sp _ _ => sp
def headSepM : Members → Sep
  | .nil cl => cl
  | .cons sp _ _ _ _ _ => sp
def headTokI : Items → Peeked
  | .nil _ => .arrayEnd
  | .cons _ v _ => startOf v
def headTokM : Members → Peeked
  | .nil _ => .objectEnd
  | .cons _ _ _ _ _ _ => .nameStart
def headTailI : Items → Bytes
  | .nil _ => []
  | .cons _ v rest => tailOf v ++ rest.bytes
def headTailM : Members → Bytes
  | .nil _ => []
  | .cons _ x w1 w2 v rest => x.body ++ 0x22 :: (w1.bytes ++ (0x3A :: (w2.bytes ++ (v.bytes ++ rest.bytes))))
def moreI : Items → Bool
  | .nil _ => false
  | .cons _ _ _ => true
def moreM : Members → Bool
  | .nil _ => false
  | .cons _ _ _ _ _ _ => true

theorem items_split (is : Items) (r : Bytes) : is.bytes ++ r = (Lead.sep (headSepI is)).bytes ++ (tokBytes (headTokI is) ++ (headTailI is ++ r)) := by
  cases is <;> simp [Items.bytes, headSepI, headTokI, headTailI, Lead.bytes, tokBytes, start_tail]

theorem members_split (ms : Members) (r : Bytes) : ms.bytes ++ r = (Lead.sep (headSepM ms)).bytes ++ (tokBytes (headTokM ms) ++ (headTailM ms ++ r)) := by
  cases ms <;> simp [Members.bytes, headSepM, headTokM, headTailM, Lead.bytes, tokBytes, Str.bytes]

theorem items_lead (h : is.Ok (cfgOf st) done.isEmpty) : (Ctx.arr up lu done).LeadFor st (headTokI is) (.sep (headSepI is)) := by
  cases is with
  | nil => exact .inl ⟨rfl, h⟩
  | cons sp v rest => exact .inr ⟨isValue_start v, h.1⟩

theorem members_lead (h : ms.Ok (cfgOf st) dm.isEmpty) : (Ctx.obj up lu dm).LeadFor st (headTokM ms) (.sep (headSepM ms)) := by
  cases ms with
  | nil => exact .inl ⟨rfl, h⟩
  | cons sp v rest => exact .inr ⟨rfl, h.1⟩

theorem items_follow {first : Bool} (h : is.Ok (cfgOf st) first) : Follow (headTokI is) (headTailI is ++ r) := by
  cases is with
  | nil => trivial
  | cons sp v rest =>
    have := follow_start (r := rest.bytes ++ r) h.2.1 fun _ => items_sepOk h.2.2
    rw [← List.append_assoc] at this
    exact this

theorem members_follow : Follow (headTokM ms) (headTailM ms ++ r) := by cases ms <;> trivial

/-- the reader is in front of the items `is` of an array -/
structure AtItems (st : Settings) (up : Ctx) (lu : Lead) (done : List (Sep × Cst)) (is : Items) (pos : Pos) (r : Bytes) (s : St) : Prop where
  slot : up.Slot lu
  ok : is.Ok (cfgOf st) done.isEmpty
  at' : s = stp st (.arr up lu done) pos none (is.bytes ++ r) ∨ s = stp st (.arr up lu done) (pos.over (headSepI is).bytes) (some (headTokI is)) (headTailI is ++ r)

/-- the reader is in front of the members `ms` of an object -/
structure AtMembers (st : Settings) (up : Ctx) (lu : Lead) (dm : List Mem) (ms : Members) (pos : Pos) (r : Bytes) (s : St) : Prop where
  slot : up.Slot lu
  ok : ms.Ok (cfgOf st) dm.isEmpty
  at' : s = stp st (.obj up lu dm) pos none (ms.bytes ++ r) ∨ s = stp st (.obj up lu dm) (pos.over (headSepM ms).bytes) (some (headTokM ms)) (headTailM ms ++ r)

theorem AtItems.peek (h : AtItems st up lu done is pos r s) : PeekTo (headTokI is) s (stp st (.arr up lu done) (pos.over (headSepI is).bytes) (some (headTokI is)) (headTailI is ++ r)) := by
  rcases h.at' with h1 | h1
  · rw [h1, items_split]
    exact peekTo_complete (items_lead h.ok) (items_follow h.ok)
  · rw [h1]
    exact ⟨pio_pk, rfl, rfl, rfl, rfl, rfl, rfl, rfl⟩

theorem AtMembers.peek (h : AtMembers st up lu dm ms pos r s) : PeekTo (headTokM ms) s (stp st (.obj up lu dm) (pos.over (headSepM ms).bytes) (some (headTokM ms)) (headTailM ms ++ r)) := by
  rcases h.at' with h1 | h1
  · rw [h1, members_split]
    exact peekTo_complete (members_lead h.ok) members_follow
  · rw [h1]
    exact ⟨pio_pk, rfl, rfl, rfl, rfl, rfl, rfl, rfl⟩

theorem AtItems.facts (h : AtItems st up lu done is pos r s) : s.expectsMemberName = false ∧ isInArray s = true ∧ expectsMemberValue s = false ∧ s.stack ≠ [] := by
  rcases h.at' with rfl | rfl <;> exact ⟨rfl, rfl, rfl, nofun⟩

theorem AtMembers.facts (h : AtMembers st up lu dm ms pos r s) : s.expectsMemberName = true ∧ isInObject s = true ∧ expectsMemberValue s = false ∧ s.stack ≠ [] := by
  rcases h.at' with rfl | rfl <;> exact ⟨rfl, rfl, rfl, nofun⟩

theorem AtItems.hasNext (h : AtItems st up lu done is pos r s) : ∃ s', Reader.hasNext.run s = .ok (moreI is) s' ∧ AtItems st up lu done is pos r s' := by
  refine ⟨_, ?_, ⟨h.slot, h.ok, .inr rfl⟩⟩
  rw [h.peek.hasNext h.facts.2.2.1 fun h' => absurd h' h.facts.2.2.2, hasNext_arr (items_lead (up := up) (lu := lu) h.ok).allows]
  cases is with
  | nil => rfl
  | cons sp v rest => rw [headTokI, isEnd_start]; rfl

theorem AtMembers.hasNext (h : AtMembers st up lu dm ms pos r s) : ∃ s', Reader.hasNext.run s = .ok (moreM ms) s' ∧ AtMembers st up lu dm ms pos r s' := by
  refine ⟨_, ?_, ⟨h.slot, h.ok, .inr rfl⟩⟩
  rw [h.peek.hasNext h.facts.2.2.1 fun h' => absurd h' h.facts.2.2.2, hasNext_obj (members_lead (up := up) (lu := lu) h.ok).allows]
  cases ms <;> rfl

theorem AtItems.endArray {cl : Sep} (h : AtItems st up lu done (.nil cl) pos r s) (V : Cst) :
    Reader.endArray.run s = .ok () (stp st (up.add lu V) (pos.over (Items.nil cl).bytes) none r) := by
  rw [h.peek.endArray h.facts.2.1]
  refine (endArray_ok (v := V) h.slot).trans ?_
  rw [Pos.over_over _ (noSplit_head (by simp))]
  rfl

theorem AtMembers.endObject {cl : Sep} (h : AtMembers st up lu dm (.nil cl) pos r s) (V : Cst) :
    Reader.endObject.run s = .ok () (stp st (up.add lu V) (pos.over (Members.nil cl).bytes) none r) := by
  rw [h.peek.endObject h.facts.2.1 h.facts.2.2.1]
  refine (endObject_ok (v := V) h.slot).trans ?_
  rw [Pos.over_over _ (noSplit_head (by simp))]
  rfl

/-- the reader is in front of the next item -/
theorem AtItems.front {sp : Sep} {rest : Items} (h : AtItems st up lu done (.cons sp v rest) pos r s) :
    Front st (.arr up lu done) s (.sep sp) v (pos.over sp.bytes) (rest.bytes ++ r) := by
  have hb : v.isBare = true → SepOk (rest.bytes ++ r) := fun _ => items_sepOk h.ok.2.2
  rcases h.at' with h1 | h1
  · rw [h1, show (Items.cons sp v rest).bytes ++ r = (Lead.sep sp).bytes ++ (v.bytes ++ (rest.bytes ++ r)) by simp [Items.bytes, Lead.bytes]]
    exact Front.of_none (items_lead h.ok) h.ok.2.1 hb
  · rw [h1, show headTailI (.cons sp v rest) ++ r = tailOf v ++ (rest.bytes ++ r) by simp [headTailI]]
    exact Front.of_peeked (items_lead h.ok) h.ok.2.1 hb

theorem AtItems.next {sp : Sep} {rest : Items} (h : AtItems st up lu done (.cons sp v rest) pos r s) :
    AtItems st up lu (done ++ [(sp, v)]) rest (pos.over (sp.bytes ++ v.bytes)) r (behind st (.arr up lu done) (.sep sp) v (pos.over sp.bytes) (rest.bytes ++ r)) := by
  refine ⟨h.slot, ?_, .inl ?_⟩
  · rw [show (done ++ [(sp, v)]).isEmpty = false by simp]; exact h.ok.2.2
  · unfold behind
    rw [over_value h.ok.2.1]
    rfl

theorem AtMembers.nextName {sp : Sep} {x : Str} {w1 w2 : Ws} {rest : Members} (h : AtMembers st up lu dm (.cons sp x w1 w2 v rest) pos r s) :
    Reader.nextName.run s = .ok x.text (stp st (.val up lu dm sp x) (pos.over (sp.bytes ++ x.bytes)) none ((Lead.colon w1 w2).bytes ++ (v.bytes ++ (rest.bytes ++ r)))) := by
  rw [h.peek.nextName h.facts.1 h.facts.2.2.2]
  have := nextName_ok (st := st) (up := up) (l := lu) (d := dm) (pos := pos.over sp.bytes) (r := (Lead.colon w1 w2).bytes ++ (v.bytes ++ (rest.bytes ++ r))) (sp := sp) h.ok.2.1
  rw [Pos.over_over _ (noSplit_head (by simp [Str.bytes]))] at this
  rw [← this]
  simp [headTokM, headTailM, headSepM, Lead.bytes]

theorem AtMembers.nextNameOwned {sp : Sep} {x : Str} {w1 w2 : Ws} {rest : Members} (h : AtMembers st up lu dm (.cons sp x w1 w2 v rest) pos r s) :
    Reader.nextNameOwned.run s = .ok x.text (stp st (.val up lu dm sp x) (pos.over (sp.bytes ++ x.bytes)) none ((Lead.colon w1 w2).bytes ++ (v.bytes ++ (rest.bytes ++ r)))) := by
  rw [h.peek.nextNameOwned h.facts.1 h.facts.2.2.2]
  have := nextNameOwned_ok (st := st) (up := up) (l := lu) (d := dm) (pos := pos.over sp.bytes) (r := (Lead.colon w1 w2).bytes ++ (v.bytes ++ (rest.bytes ++ r))) (sp := sp) h.ok.2.1
  rw [Pos.over_over _ (noSplit_head (by simp [Str.bytes]))] at this
  rw [← this]
  simp [headTokM, headTailM, headSepM, Lead.bytes]

theorem AtMembers.skipName {sp : Sep} {x : Str} {w1 w2 : Ws} {rest : Members} (h : AtMembers st up lu dm (.cons sp x w1 w2 v rest) pos r s) :
    Reader.skipName.run s = .ok () (stp st (.val up lu dm sp x) (pos.over (sp.bytes ++ x.bytes)) none ((Lead.colon w1 w2).bytes ++ (v.bytes ++ (rest.bytes ++ r)))) := by
  rw [h.peek.skipName h.facts.1 h.facts.2.2.2]
  have := skipName_ok (st := st) (up := up) (l := lu) (d := dm) (pos := pos.over sp.bytes) (r := (Lead.colon w1 w2).bytes ++ (v.bytes ++ (rest.bytes ++ r))) (sp := sp) h.ok.2.1
  rw [Pos.over_over _ (noSplit_head (by simp [Str.bytes]))] at this
  rw [← this]
  simp [headTokM, headTailM, headSepM, Lead.bytes]

/-- the state behind the name -/
def afterName (st : Settings) (up : Ctx) (lu : Lead) (dm : List Mem) (sp : Sep) (x : Str) (w1 w2 : Ws) (v : Cst) (pos : Pos) (r : Bytes) : St :=
  stp st (.val up lu dm sp x) (pos.over (sp.bytes ++ x.bytes)) none ((Lead.colon w1 w2).bytes ++ (v.bytes ++ r))

theorem AtMembers.front {sp : Sep} {x : Str} {w1 w2 : Ws} {rest : Members} (h : AtMembers st up lu dm (.cons sp x w1 w2 v rest) pos r s) :
    Front st (.val up lu dm sp x) (afterName st up lu dm sp x w1 w2 v pos (rest.bytes ++ r)) (.colon w1 w2) v ((pos.over (sp.bytes ++ x.bytes)).over (Lead.colon w1 w2).bytes) (rest.bytes ++ r) :=
  Front.of_none ⟨isValue_start v, h.ok.2.2.1, h.ok.2.2.2.1⟩ h.ok.2.2.2.2.1 fun _ => members_sepOk h.ok.2.2.2.2.2

theorem colon_over {sp : Sep} {x : Str} {w1 w2 : Ws} (hv : v.Ok (cfgOf st)) : ((pos.over (sp.bytes ++ x.bytes)).over (Lead.colon w1 w2).bytes).over v.bytes = pos.over (sp.bytes ++ (x.bytes ++ (w1.bytes ++ (0x3A :: (w2.bytes ++ v.bytes))))) := by
  rw [over_value hv, Pos.over_over _ (noCr_append (by simp [Str.bytes]) (str_noCr x)).noSplit]
  simp [Lead.bytes]

theorem AtMembers.next {sp : Sep} {x : Str} {w1 w2 : Ws} {rest : Members} (h : AtMembers st up lu dm (.cons sp x w1 w2 v rest) pos r s) :
    AtMembers st up lu (dm ++ [⟨sp, x, w1, w2, v⟩]) rest (pos.over (sp.bytes ++ (x.bytes ++ (w1.bytes ++ (0x3A :: (w2.bytes ++ v.bytes)))))) r
      (behind st (.val up lu dm sp x) (.colon w1 w2) v ((pos.over (sp.bytes ++ x.bytes)).over (Lead.colon w1 w2).bytes) (rest.bytes ++ r)) := by
  refine ⟨h.slot, ?_, .inl ?_⟩
  · rw [show (dm ++ [(⟨sp, x, w1, w2, v⟩ : Mem)]).isEmpty = false by simp]; exact h.ok.2.2.2.2.2
  · unfold behind
    rw [colon_over h.ok.2.2.2.2.1]
    rfl

theorem Front.beginArray (h : Front st c s l (.arr is) pos r) (hf : tooDeep st c = none) :
    ∃ s', Reader.beginArray.run s = .ok () s' ∧ AtItems st c l [] is (pos.over [0x5B]) r s' := by
  refine ⟨_, ?_, h.slot, h.ok, .inl rfl⟩
  rw [h.peek.beginArray h.emn]
  exact beginArray_ok h.slot hf

theorem Front.beginObject (h : Front st c s l (.obj ms) pos r) (hf : tooDeep st c = none) :
    ∃ s', Reader.beginObject.run s = .ok () s' ∧ AtMembers st c l [] ms (pos.over [0x7B]) r s' := by
  refine ⟨_, ?_, h.slot, h.ok, .inl rfl⟩
  rw [h.peek.beginObject h.emn]
  exact beginObject_ok h.slot hf

theorem over_arr : (pos.over [0x5B]).over is.bytes = pos.over (Cst.arr is).bytes := by
  rw [Pos.over_over _ (plain_cons (by decide) plain_nil : Plain [0x5B]).noBreak.left]
  rfl
theorem over_obj : (pos.over [0x7B]).over ms.bytes = pos.over (Cst.obj ms).bytes := by
  rw [Pos.over_over _ (plain_cons (by decide) plain_nil : Plain [0x7B]).noBreak.left]
  rfl

theorem over_items {sp : Sep} {rest : Items} (hv : v.Ok (cfgOf st)) : (pos.over (sp.bytes ++ v.bytes)).over rest.bytes = pos.over (Items.cons sp v rest).bytes := by
  rw [Pos.over_over _ (noCr_append (Cst.noCr hv).2 (Cst.noCr hv).1).noSplit, Items.bytes, List.append_assoc]

theorem over_members {sp : Sep} {x : Str} {w1 w2 : Ws} {rest : Members} (hv : v.Ok (cfgOf st)) :
    (pos.over (sp.bytes ++ (x.bytes ++ (w1.bytes ++ (0x3A :: (w2.bytes ++ v.bytes)))))).over rest.bytes = pos.over (Members.cons sp x w1 w2 v rest).bytes := by
  rw [show sp.bytes ++ (x.bytes ++ (w1.bytes ++ (0x3A :: (w2.bytes ++ v.bytes)))) = (sp.bytes ++ (x.bytes ++ (w1.bytes ++ (0x3A :: w2.bytes)))) ++ v.bytes by simp,
    Pos.over_over _ (noCr_append (Cst.noCr hv).2 (Cst.noCr hv).1).noSplit]
  simp [Members.bytes]

/-! ## Scalars -/

theorem Front.peekOp (h : Front st c s l v pos r) : ∃ s', Reader.peek.run s = .ok (typeOf (startOf v)) s' ∧ Front st c s' l v pos r := by
  refine ⟨_, ?_, h.peeked⟩
  rw [h.peek.peek h.emn, mapPeeked_value (isValue_start v)]

theorem Front.nextNull (h : Front st c s l .null pos r) : Reader.nextNull.run s = .ok () (behind st c l .null pos r) := by
  rw [h.peek.nextNull h.emn]
  exact nextNull_ok h.slot
theorem Front.nextBool {b : Bool} (h : Front st c s l (.bool b) pos r) : Reader.nextBool.run s = .ok b (behind st c l (.bool b) pos r) := by
  rw [h.peek.nextBool h.emn]
  cases b
  · exact nextBool_ok (b := false) h.slot
  · exact nextBool_ok (b := true) h.slot
theorem Front.nextString {x : Str} (h : Front st c s l (.str x) pos r) : Reader.nextString.run s = .ok x.text (behind st c l (.str x) pos r) := by
  rw [h.peek.nextString h.emn, show tailOf (.str x) ++ r = x.body ++ 0x22 :: r by simp [tailOf]]
  exact nextString_ok h.slot h.ok
theorem Front.nextStr {x : Str} (h : Front st c s l (.str x) pos r) : Reader.nextStr.run s = .ok x.text (behind st c l (.str x) pos r) := by
  rw [h.peek.nextStr h.emn, show tailOf (.str x) ++ r = x.body ++ 0x22 :: r by simp [tailOf]]
  exact nextStr_ok h.slot h.ok
theorem Front.nextNumberAsString {bs : Bytes} (h : Front st c s l (.num bs) pos r) (hr : ¬ Restricted st bs) : Reader.nextNumberAsString.run s = .ok (asciiText bs) (behind st c l (.num bs) pos r) := by
  rw [h.peek.nextNumberAsString h.emn]
  exact nextNumberAsString_ok h.slot h.ok (h.bare rfl) hr
theorem Front.nextNumberAsStr {bs : Bytes} (h : Front st c s l (.num bs) pos r) (hr : ¬ Restricted st bs) : Reader.nextNumberAsStr.run s = .ok (asciiText bs) (behind st c l (.num bs) pos r) := by
  rw [h.peek.nextNumberAsStr h.emn]
  exact nextNumberAsStr_ok h.slot h.ok (h.bare rfl) hr

end
end Verif.Abs
