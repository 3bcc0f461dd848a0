import Verif.Proofs.Abs.Place
import Verif.Proofs.Abs.ReadAt
import Verif.Proofs.Abs.Mismatch
/-! # What the reader does at a token, for arbitrary inputs -/

namespace Verif.Abs
open Reader Utf8 Json Usage

section
variable {st : Settings} {inp : Bytes} {g : Prop} {c : Ctx} {s : St} {m : Mode} {op : Op}

/-- the source of a state stays one without error at the end -/
theorem call_term (h : Inv st inp g m s) (hne : op ≠ .consumeTrailingWhitespace) :
    Wp (runOp op) s (fun _ s' => s'.src.term = none) (fun e s' => e.fatal = false → s'.src.term = none) := by
  have he : ∀ {K : Mode → Prop} {e : RErr} {s' : St}, EOk st inp g K e s' → e.fatal = false → s'.src.term = none := by
    intro K e s' h hf
    refine h.term ?_
    cases e <;> first | trivial | cases hf
  have hpan : ∀ {Q : Out → St → Prop}, Panics (runOp op) s → Wp (runOp op) s Q (fun e s' => e.fatal = false → s'.src.term = none) := fun h => h.wp fun _ _ => nofun
  cases h with
  | @«at» c _ h =>
    cases ha : c.mode.allowed st.allowMultipleTopLevel op with
    | true => exact (allowed_wp h ha hne).mono (fun _ _ h => h.term) fun _ _ => he
    | false =>
      by_cases hb : ∃ p, op = .seekBack p
      · obtain ⟨path, rfl⟩ := hb
        refine Wp.bind' (P := fun _ _ => False) ((seekBackLoop_any h).mono ?_ ?_) fun _ _ h => h.elim
        · rintro _ s' ⟨h1, _⟩
          rw [show Mode.canSeekBack path.reverse c.mode = false from ha] at h1
          exact Bool.noConfusion h1
        · rintro e s' (h | ⟨_, p, rfl⟩)
          · exact he h
          · nofun
      · exact hpan (not_allowed_panics h.looks ha fun p hp => hb ⟨p, hp⟩)
  | @active c l pos r x y h1 h2 h3 h4 =>
    cases ha : ({ c.mode with str := true } : Mode).allowed st.allowMultipleTopLevel op with
    | false => exact hpan (active_panics rfl ha)
    | true =>
      cases op <;> first | exact Bool.noConfusion ha | skip
      · rename_i path
        cases hp : path.reverse with
        | nil =>
          rw [List.reverse_eq_nil_iff] at hp
          subst hp
          exact Wp.of_ok (a := .unit) rfl rfl
        | cons q ps =>
          have : Mode.canSeekBack path.reverse { c.mode with str := true } = true := ha
          rw [hp] at this
          cases q <;> exact Bool.noConfusion this
      · exact Wp.get (Wp.pure rfl)

/-- the state behind calls with the given results, for an input without error -/
theorem reach_inv {op : Op} : ∀ (ops : List Op) {g : Prop} {m : Mode} {s : St}, Inv st inp g m s → (runOps (ops ++ [op]) s).length = ops.length + 1 →
    ∃ (s' : St) (g' : Prop) (m' : Mode), ((∀ r ∈ runOps ops s, ∀ t l, r ≠ .error (.unsupportedNumberValue t l)) → g → g') ∧
      (∀ m2, m.after ops (runOps ops s) = some m2 → m2 = m') ∧ Inv st inp g' m' s' ∧
      ∀ tail, runOps (ops ++ tail) s = runOps ops s ++ runOps tail s' := by
  intro ops
  induction ops with
  | nil =>
    intro g m s h ha
    exact ⟨s, g, m, fun _ h => h, fun m2 h => by cases h; rfl, h, fun _ => rfl⟩
  | cons o ops ih =>
    intro g m s h ha
    have hT : InvT st inp g m s := by unfold InvT; rw [noTerm_of_none h.term]; exact h
    have hw := call_any (op := o) hT
    have hr : ∀ l, runOps (o :: l) s = match (runOp o).run s with
      | .ok x s' => .ok x :: if o = .consumeTrailingWhitespace then [] else runOps l s'
      | .err e s' => .error e :: if e.fatal || o = .consumeTrailingWhitespace then [] else runOps l s' := fun _ => by rw [runOps]; cases (runOp o).run s <;> rfl
    simp only [List.cons_append] at ha ⊢
    simp only [hr] at ha ⊢
    unfold Wp at hw
    cases hrun : (runOp o).run s with
    | ok x s' =>
      rw [hrun] at hw ha
      simp only at ha ⊢
      by_cases hop : o = .consumeTrailingWhitespace
      · rw [if_pos hop] at ha; simp at ha
      · rw [if_neg hop] at ha
        have ht := call_term h hop
        unfold Wp at ht
        rw [hrun] at ht
        have hI : Inv st inp g (m.next x o) s' := by
          have h3 := hw.2 hop
          unfold InvT at h3
          rwa [noTerm_of_none ht] at h3
        obtain ⟨s2, g', m', h1, h1', h2, h3⟩ := ih hI (by simpa using ha)
        refine ⟨s2, g', m', ?_, ?_, h2, ?_⟩
        · intro hr
          rw [if_neg hop] at hr
          exact h1 fun r h => hr r (List.mem_cons_of_mem _ h)
        · intro m2 hm2
          rw [if_neg hop] at hm2
          simp only [Mode.after, if_neg hop] at hm2
          exact h1' m2 hm2
        · intro tail
          rw [if_neg hop, if_neg hop, h3, List.cons_append]
    | err e s' =>
      rw [hrun] at hw ha
      simp only at ha ⊢
      by_cases hf : (e.fatal || decide (o = .consumeTrailingWhitespace)) = true
      · rw [if_pos hf] at ha; simp at ha
      · rw [if_neg hf] at ha
        have hn := hf
        simp only [Bool.or_eq_true, decide_eq_true_eq, not_or] at hf
        obtain ⟨hf1, hf3⟩ := hf
        have ht := call_term h hf3
        unfold Wp at ht
        rw [hrun] at ht
        have ht := ht (by simpa using hf1)
        cases hw with
        | src => exact absurd rfl hf1
        | panic => exact absurd rfl hf1
        | fatal h => exact absurd h hf1
        | nonfatal m2 h hm hc =>
          have hI := hm hf3
          unfold InvT at hI
          rw [noTerm_of_none ht] at hI
          obtain ⟨s2, g', m', h1, h1', h2, h3⟩ := ih hI (by simpa using ha)
          refine ⟨s2, g', m', ?_, ?_, h2, ?_⟩
          · intro hr hg
            rw [if_neg hn] at hr
            refine h1 (fun r h => hr r (List.mem_cons_of_mem _ h)) ⟨hg, fun t l he => ?_⟩
            exact hr _ (List.mem_cons_self ..) t l (by rw [he])
          · intro m3 hm3
            rw [if_neg hn] at hm3
            unfold Mode.after at hm3
            split at hm3
            · cases hm3
            · rename_i hcc
              simp only [Bool.or_eq_true, decide_eq_true_eq, not_or] at hcc
              have := hc (by simpa using hcc.1.2)
              subst this
              exact h1' _ hm3
          · intro tail
            rw [if_neg hn, if_neg hn, h3, List.cons_append]

/-! ## Numbers -/

variable {pos : Pos} {rest : Bytes}

theorem sep_ne {r : Bytes} {s : St} {k : SyntaxKind} (hr : s.src.rest = r) (h : ¬ SepOk r) : (verifyValueSeparator k).run s = .err (.syntax k (loc s)) s := by
  unfold verifyValueSeparator
  cases r with
  | nil => exact absurd (by rintro _ ⟨⟩) h
  | cons b t =>
    rw [M.bind_ok (peekByte_cons hr)]
    dsimp only
    rw [if_neg]
    · rfl
    · intro hb
      exact h (by rintro _ ⟨⟩; exact hb)

theorem finishNumber_err {bs r a : Bytes} (hn : IsNumber bs) (h : ¬ SepOk r) :
    ∃ l s', (finishNumber bs.length).run (setAcc (stp st c pos none r) a) = .err (.syntax .trailingDataAfterNumber l) s' := by
  unfold finishNumber
  rw [M.bind_ok (advance_plain _ (isNumber_plain hn) rfl), M.bind_err (sep_ne rfl h)]
  exact ⟨_, _, rfl⟩

theorem numL_bad (h : ¬ ∃ bs r, rest = bs ++ r ∧ IsNumber bs ∧ JsonNumber.NumStop r) : (JsonNumber.numL rest).1 = none := by
  rcases hn : JsonNumber.numL rest with ⟨_ | k, l'⟩
  · rfl
  · obtain ⟨p, hpv, h3, rfl, h4⟩ := JsonNumber.numL_sound hn
    exact absurd ⟨_, _, h3, ⟨p, hpv, rfl⟩, h4⟩ h

theorem readNumber_malformed {rq : Bool} {b : UInt8} {t : Bytes} (he : c.emn = false) (hb : rest = b :: t) (h : ¬ ∃ bs r, rest = bs ++ r ∧ IsNumber bs ∧ JsonNumber.NumStop r) :
    ∃ l s', (readNumberBytes rq).run (stp st c pos (some .numberStart) rest) = .err (.syntax .malformedNumber l) s' := by
  unfold readNumberBytes
  rw [M.bind_ok (sev_ok (t := .number) (chk := false) he rfl rfl Bool.noConfusion)]
  obtain ⟨pre, h1, h2⟩ := consumeNumber_spec (s := stp st c (pos.over (tokBytes .numberStart)) none rest) (create := liftS ByteSource.vNew) (s1 := setAcc (stp st c (pos.over (tokBytes .numberStart)) none rest) []) rfl rfl rfl vConsume_cons vPeek_run hb
  have hn := numL_bad h
  rw [show (stp st c (pos.over (tokBytes .numberStart)) none rest).src.rest = rest from rfl, hn] at h2
  exact ⟨_, _, M.bind_err h2⟩

theorem readNumber_trailing {rq : Bool} {bs r : Bytes} (he : c.emn = false) (hn : IsNumber bs) (hr : JsonNumber.NumStop r) (hs : ¬ SepOk r) (hx : ¬ Restricted st bs) :
    ∃ l s', (readNumberBytes rq).run (stp st c pos (some .numberStart) (bs ++ r)) = .err (.syntax .trailingDataAfterNumber l) s' := by
  unfold readNumberBytes
  obtain ⟨k, hk⟩ := IsNumber.expDigits hn
  rw [M.bind_ok (sev_ok (t := .number) (chk := false) he rfl rfl Bool.noConfusion), M.bind_ok (collectNumber_complete rfl hk rfl hr)]
  dsimp only
  rw [run_get, if_neg, M.bind_ok (a := ()) (s' := setAcc (stp st c pos none r) bs) rfl]
  · exact finishNumber_err hn hs
  · intro hc
    simp only [Bool.and_eq_true, Bool.or_eq_true, decide_eq_true_eq] at hc
    exact hx ⟨hc.1, hc.2.symm.imp id fun h => ⟨k, hk, h⟩⟩

theorem skipNumber_malformed {b : UInt8} {t : Bytes} (he : c.emn = false) (hb : rest = b :: t) (h : ¬ ∃ bs r, rest = bs ++ r ∧ IsNumber bs ∧ JsonNumber.NumStop r) :
    ∃ l s', skipNumber.run (stp st c pos (some .numberStart) rest) = .err (.syntax .malformedNumber l) s' := by
  unfold skipNumber
  rw [M.bind_ok (sev_ok (t := .number) (chk := false) he rfl rfl Bool.noConfusion)]
  obtain ⟨pre, h1, h2⟩ := consumeNumber_spec (keep := false) (s := stp st c (pos.over (tokBytes .numberStart)) none rest) (create := pure ()) (s1 := stp st c (pos.over (tokBytes .numberStart)) none rest) rfl rfl rfl skipPeekedByte_cons peekByte_run hb
  have hn := numL_bad h
  rw [show (stp st c (pos.over (tokBytes .numberStart)) none rest).src.rest = rest from rfl, hn] at h2
  exact ⟨_, _, M.bind_err h2⟩

theorem skipNumber_trailing {bs r : Bytes} (he : c.emn = false) (hn : IsNumber bs) (hr : JsonNumber.NumStop r) (hs : ¬ SepOk r) :
    ∃ l s', skipNumber.run (stp st c pos (some .numberStart) (bs ++ r)) = .err (.syntax .trailingDataAfterNumber l) s' := by
  unfold skipNumber
  obtain ⟨k, hk⟩ := IsNumber.expDigits hn
  rw [M.bind_ok (sev_ok (t := .number) (chk := false) he rfl rfl Bool.noConfusion), M.bind_ok (skipNumberBytes_complete rfl hk rfl hr)]
  exact finishNumber_err (a := []) hn hs

/-- `skip_value` in front of a number -/
theorem skipValue_number {e : RErr} {s' : St} (he : c.emn = false) (h : skipNumber.run (stp st c pos (some .numberStart) rest) = .err e s') :
    skipValue.run (stp st c pos (some .numberStart) rest) = .err e s' := by
  unfold skipValue
  rw [run_get, if_neg (by show ¬ c.emn = true; rw [he]; decide), fuel_stp, skipLoop_top he]
  refine M.bind_err ?_
  unfold skipValueStart
  rw [M.bind_ok (a := .number) (s' := stp st c pos (some .numberStart) rest) ?_]
  · exact M.bind_err h
  · unfold peek
    rw [run_get, if_neg (by show ¬ c.emn = true; rw [he]; decide), M.bind_ok pi_pk]
    exact mapPeeked_value rfl

/-! ## Strings -/

/-- the remaining input does not start with (the rest of) a string -/
def NoString (r : Bytes) : Prop := ∀ (x : Str) (r' : Bytes), x.Ok → r ≠ x.body ++ 0x22 :: r'

theorem Lo.fails {α : Type} {m : R AbsSrc α} {s : St} {Q : α → St → Prop} (h : Lo m s Q) (hq : ∀ a s', ¬ Q a s') : ∃ e s', DataErr e ∧ m.run s = .err e s' := by
  unfold Lo Wp at h
  cases hm : m.run s with
  | ok a s' => rw [hm] at h; exact absurd h (hq a s')
  | err e s' => rw [hm] at h; exact ⟨e, s', h, rfl⟩

theorem readString_bad {s : St} {rq : Bool} (ht : s.src.term = none) (h : NoString s.src.rest) : ∃ e s', DataErr e ∧ (readString rq).run s = .err e s' :=
  (readString_lo ht rq).fails fun _ _ ⟨x, r, hx, hr, _⟩ => h x r hx hr

theorem skipAll_bad {s : St} (ht : s.src.term = none) (h : NoString s.src.rest) : ∃ e s', DataErr e ∧ skipAllStringBytes.run s = .err e s' :=
  (skipAll_lo ht).fails fun _ _ ⟨x, r, hx, hr, _⟩ => h x r hx hr

theorem nextString_bad (he : c.emn = false) (h : NoString rest) : ∃ e s', DataErr e ∧ nextString.run (stp st c pos (some .stringStart) rest) = .err e s' := by
  obtain ⟨e, s', hd, hr⟩ := readString_bad (s := stp st c (pos.over (tokBytes .stringStart)) none rest) rfl h
  refine ⟨e, s', hd, ?_⟩
  unfold nextString
  rw [M.bind_ok (sev_ok (t := .string) (chk := false) he rfl rfl Bool.noConfusion)]
  exact M.bind_err hr

theorem nextStr_bad (he : c.emn = false) (h : NoString rest) : ∃ e s', DataErr e ∧ nextStr.run (stp st c pos (some .stringStart) rest) = .err e s' := by
  obtain ⟨e, s', hd, hr⟩ := readString_bad (s := stp st c (pos.over (tokBytes .stringStart)) none rest) rfl h
  refine ⟨e, s', hd, ?_⟩
  unfold nextStr
  rw [M.bind_ok (sev_ok (t := .string) (chk := false) he rfl rfl Bool.noConfusion)]
  exact M.bind_err hr

theorem skipString_bad (he : c.emn = false) (h : NoString rest) : ∃ e s', DataErr e ∧ skipValue.run (stp st c pos (some .stringStart) rest) = .err e s' := by
  obtain ⟨e, s', hd, hr⟩ := skipAll_bad (s := stp st c (pos.over (tokBytes .stringStart)) none rest) rfl h
  refine ⟨e, s', hd, ?_⟩
  unfold skipValue
  rw [run_get, if_neg (by show ¬ c.emn = true; rw [he]; decide), fuel_stp, skipLoop_top he]
  refine M.bind_err ?_
  unfold skipValueStart
  rw [M.bind_ok (a := .string) (s' := stp st c pos (some .stringStart) rest) ?_]
  · refine (M.bind_ok (sev_ok (t := .string) (chk := false) he rfl rfl Bool.noConfusion)).trans ?_
    exact M.bind_err hr
  · unfold peek
    rw [run_get, if_neg (by show ¬ c.emn = true; rw [he]; decide), M.bind_ok pi_pk]
    exact mapPeeked_value rfl

theorem item_enc {i : StrItem} {ch : Char} (h : i.Is ch) : (String.utf8EncodeChar ch).length ≤ i.bytes.length := by
  have h4 : (String.utf8EncodeChar ch).length ≤ 4 := by rw [String.length_utf8EncodeChar]; exact Char.utf8Size_le_four ch
  cases h with
  | char => exact Nat.le_refl _
  | short b _ h =>
    obtain ⟨x, hx⟩ := simpleEscape_of_some h
    rw [hx.2]
    simp [StrItem.bytes]
  | unicode h => exact Nat.le_trans h4 (show 4 ≤ 6 by decide)
  | pair hi lo => exact Nat.le_trans h4 (show 4 ≤ 12 by decide)

theorem items_enc {is : List StrItem} {cs : Text} (h : ItemsAre is cs) : (enc cs).length ≤ (is.flatMap StrItem.bytes).length := by
  induction h with
  | nil => exact Nat.le_refl _
  | cons hi _ ih =>
    have := item_enc hi
    rw [enc_cons, List.flatMap_cons, List.length_append, List.length_append]
    omega

/-- reading a malformed string with enough space -/
theorem reads_bad {l : Lead} {lens : List Nat} (hs : c.Slot l) (h : NoString rest) (hl : rest.length < lens.sum) :
    ∃ e s', DataErr e ∧ (readsOp lens).run (stp st c pos (some .stringStart) rest) = .err e s' := by
  have h2 := strReadsOk_wp (st := st) hs (lens := lens) (pos := pos.over [0x22]) (r := rest) SR.new
  unfold Wp at h2
  unfold readsOp
  rw [M.bind_ok (nextStringReader_ok hs)]
  cases hrun : (strReadsOk lens StrReader.new).run (active st c (pos.over [0x22]) rest) with
  | err e s1 =>
    rw [hrun] at h2
    exact ⟨e, s1, h2.1, M.bind_err hrun⟩
  | ok res s1 =>
    rw [hrun] at h2
    obtain ⟨is, cs, his, hrs, hcase⟩ := h2
    rcases hcase with ⟨_, _, hlen, r', hr', hs1⟩ | ⟨_, hlen, r', hr', hs1⟩
    · exact absurd hr' (h ⟨is, cs⟩ r' his)
    · have := items_enc his
      rw [hr', List.length_append] at hl
      rw [List.nil_append] at hlen
      omega

/-! ## Names -/

section
variable {up : Ctx} {lu : Lead} {d : List Mem}

theorem nextName_bad (h : NoString rest) : ∃ e s', DataErr e ∧ nextName.run (stp st (.obj up lu d) pos (some .nameStart) rest) = .err e s' := by
  obtain ⟨e, s', hd, hr⟩ := readString_bad (s := nameState st up lu d (pos.over [0x22]) rest) rfl h
  refine ⟨e, s', hd, ?_⟩
  unfold nextName
  rw [M.bind_ok beforeName_ok]
  exact M.bind_err hr

theorem nextNameOwned_bad (h : NoString rest) : ∃ e s', DataErr e ∧ nextNameOwned.run (stp st (.obj up lu d) pos (some .nameStart) rest) = .err e s' := by
  obtain ⟨e, s', hd, hr⟩ := readString_bad (s := nameState st up lu d (pos.over [0x22]) rest) rfl h
  refine ⟨e, s', hd, ?_⟩
  unfold nextNameOwned
  rw [M.bind_ok beforeName_ok]
  exact M.bind_err hr

theorem skipName_bad (h : NoString rest) : ∃ e s', DataErr e ∧ skipName.run (stp st (.obj up lu d) pos (some .nameStart) rest) = .err e s' := by
  unfold skipName
  rw [M.bind_ok beforeName_ok, run_get]
  split
  · obtain ⟨e, s', hd, hr⟩ := readString_bad (s := nameState st up lu d (pos.over [0x22]) rest) rfl h
    exact ⟨e, s', hd, M.bind_err hr⟩
  · exact skipAll_bad (s := nameState st up lu d (pos.over [0x22]) rest) rfl h

end

end
end Verif.Abs
