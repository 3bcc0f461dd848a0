import Verif.Proofs.Kinds.Ops
/-! # Which errors the methods report which consist of several steps -/

namespace Verif.Kinds
open Reader ErrorKinds Abs.After

variable {st : Settings} {d : Does} {α β : Type} {s : St}

/-- only allowed errors -/
abbrev Cp (st : Settings) (d : Does) {α : Type} (m : R AbsSrc α) (s : St) (Q : α → St → Prop) : Prop := Wp m s Q (fun e s' => Allowed st d e ∧ s'.settings = st)

/-- consistent state -/
structure Ws (st : Settings) (s : St) : Prop where
  w : W s
  st : s.settings = st

theorem both {m : R AbsSrc α} {Q Q' : α → St → Prop} (h : Up m s Q) (h' : Cp st d m s Q') : Cp st d m s (fun a s' => Q a s' ∧ Q' a s') := by
  unfold Cp Up Wp at *
  split <;> rename_i hm <;> rw [hm] at h h'
  · exact ⟨h, h'⟩
  · exact h'

theorem both' {m : R AbsSrc α} {Q : α → St → Prop} (hs : s.settings = st) (h : Up m s Q) (h' : Bl st d Kt m) : Cp st d m s (fun a s' => Q a s' ∧ s'.settings = st) :=
  both h ((h' s hs).post fun _ _ h => Eq.trans h hs)

/-! ## A token which is known -/

theorem pi_known {p : Peeked} (hs : s.settings = st) (hp : s.peeked = some p) : Cp st d peekInternal s (fun q s' => p = q ∧ s = s') := by
  unfold peekInternal peekInternalOptional
  refine Wp.bind (Wp.get (Wp.ite (fun _ => ⟨trivial, hs⟩) fun _ => ?_))
  rw [hp]
  exact Wp.ite (fun _ => ⟨rfl, rfl⟩) fun h => absurd rfl h

/-- the type of a token -/
def Typ (p : Peeked) (t : ValueType) : Prop := ∀ x : St, (mapPeeked p).run x = .ok t x

/-- the next token is known and starts a value of the type -/
def Knows (t : ValueType) (s : St) : Prop := ∃ p, s.peeked = some p ∧ Typ p t

theorem sev_known {t : ValueType} {c : Bool} (hs : s.settings = st) (h : Knows t s) (hc : c = true → d.starts = true) : Cp st d (startExpectedValueType t c) s (fun _ s' => s'.settings = st) := by
  obtain ⟨p, hp, ht⟩ := h
  unfold startExpectedValueType
  refine Wp.get (Wp.ite (fun _ => ⟨trivial, hs⟩) fun _ => Wp.bind' (pi_known hs hp) ?_)
  rintro _ _ ⟨rfl, rfl⟩
  refine Wp.bind_ok (ht _) (Wp.get (Wp.ite (fun _ => ?_) fun h => absurd (beq_self_eq_true t) h))
  have hk : ∀ p : Peeked, Cp st d (do consumePeeked; pure p : R AbsSrc Peeked) s (fun _ s' => s'.settings = st) := fun p =>
    ((Bl.bind (consumePeeked_bl (st := st) (d := d)) fun _ => Bl.pure p) s hs).post fun _ _ h => h.1.trans hs
  cases c with
  | false => exact hk _
  | true =>
    cases hm : depthExceeded s with
    | none => exact hk _
    | some m => exact ⟨⟨hc rfl, depth_some hs hm⟩, hs⟩

/-- a method which first checks the type -/
theorem after_sev {t : ValueType} {c : Bool} {f : Peeked → R AbsSrc β} (hs : s.settings = st) (h : Knows t s) (hc : c = true → d.starts = true) (hf : ∀ p, Bl st d Kt (f p)) :
    Cp st d (startExpectedValueType t c >>= f) s (fun _ s' => s'.settings = st) :=
  Wp.bind' (sev_known hs h hc) fun p s1 h1 => (hf p s1 h1).post fun _ _ h2 => Eq.trans h2 h1

section
variable (hr : d.reads = true) (ht : d.tokens = true) (hf : d.structures .fewerElementsThanExpected = true)
include hr ht hf

theorem peek_known (hw : Ws st s) : Cp st d peek s (fun t s' => Ws st s' ∧ Knows t s') := by
  unfold peek
  refine Wp.get (Wp.ite (fun _ => ⟨trivial, hw.st⟩) fun _ => ?_)
  refine Wp.bind' (both' hw.st (peekInternal_up hw.w) (pi_bl hr ht hf).toT) ?_
  rintro p s1 ⟨⟨h1, h2, h3, -⟩, h4⟩
  have hk : ∀ t, Typ p t → Cp st d (mapPeeked p) s1 (fun t s' => Ws st s' ∧ Knows t s') := fun t ht => Wp.of_ok (ht s1) ⟨⟨h1, h4⟩, p, h3, ht⟩
  cases p
  all_goals first
    | exact hk _ fun _ => rfl
    | exact ⟨hf, h4⟩
    | exact ⟨trivial, h4⟩

theorem skipValueStart_cp (hs : d.strings = true) (hn : d.numbers = true) (hc : d.starts = true) (hw : Ws st s) : Cp st d skipValueStart s (fun _ s' => s'.settings = st) := by
  unfold skipValueStart
  refine Wp.bind' (peek_known hr ht hf hw) ?_
  rintro t s1 ⟨hw1, hk⟩
  have hp : ∀ {m : R AbsSrc Unit} {k : Nat}, Cp st d m s1 (fun _ s' => s'.settings = st) → Cp st d (do m; pure k) s1 (fun _ s' => s'.settings = st) := fun h => Wp.bind' h fun _ _ h => h
  have he := (onValueEnd_bl (st := st) (d := d)).toT
  cases t with
  | array =>
    refine hp ?_
    unfold beginArray onContainerStart
    rw [bind_assoc]
    exact after_sev hw1.st hk (fun _ => hc) fun _ => by bl
  | object =>
    refine hp ?_
    unfold beginObject onContainerStart
    rw [bind_assoc]
    exact after_sev hw1.st hk (fun _ => hc) fun _ => by bl
  | string =>
    have := (skipStr_bl (st := st) hr hs).toT
    exact after_sev hw1.st hk nofun fun _ => by bl
  | number =>
    refine hp ?_
    have h1 := (consumeNumber_bl (st := st) hr hn (cr := pure ()) (Bl.pure _) (skipPeekedByte_bl hr) (peekByte_bl hr)).toT
    exact after_sev hw1.st hk nofun fun _ => Bl.bind h1 fun _ => (finishNumber_bl hr hn).toT
  | boolean =>
    dsimp only
    unfold nextBool
    rw [bind_assoc]
    exact after_sev hw1.st hk nofun fun _ => by bl
  | null =>
    refine hp ?_
    exact after_sev hw1.st hk nofun fun _ => by bl
end

/-- there are no more elements -/
def AtEnd (s : St) : Prop := s.stack = [] ∨ ∃ p, s.peeked = some p ∧ (p = .arrayEnd ∨ p = .objectEnd)

theorem endArray_known (hw : Ws st s) (he : AtEnd s) : Cp st d endArray s (fun _ s' => s'.settings = st) := by
  unfold endArray
  refine Wp.get (Wp.ite (fun _ => ⟨trivial, hw.st⟩) fun ha => ?_)
  have ha : isInArray s = true := by simpa using ha
  rcases he with he | ⟨p, hp, he⟩
  · unfold isInArray at ha; rw [he] at ha; cases ha
  · refine Wp.bind' (pi_known hw.st hp) ?_
    rintro _ _ ⟨rfl, rfl⟩
    have h1 := hw.w.tok _ hp
    refine Wp.ite (fun h => ?_) fun _ => ?_
    · rcases he with rfl | rfl
      · cases h
      · have h2 := hw.w.name h1.symm
        unfold isInObject isInArray at *
        rw [eq_of_beq ha] at h2
        cases h2
    · exact (Bl.bind consumePeeked_bl.toT (fun _ => onContainerEnd_bl) s hw.st).post fun _ _ h => Eq.trans h hw.st

theorem endObject_known (hw : Ws st s) (he : AtEnd s) : Cp st d endObject s (fun _ s' => s'.settings = st) := by
  unfold endObject
  refine Wp.get (Wp.ite (fun _ => ⟨trivial, hw.st⟩) fun ha => Wp.ite (fun _ => ⟨trivial, hw.st⟩) fun hv => ?_)
  have ha : isInObject s = true := by simpa using ha
  rcases he with he | ⟨p, hp, he⟩
  · unfold isInObject at ha; rw [he] at ha; cases ha
  · refine Wp.bind' (pi_known hw.st hp) ?_
    rintro _ _ ⟨rfl, rfl⟩
    have h1 := hw.w.tok _ hp
    refine Wp.ite (fun h => ?_) fun _ => ?_
    · rcases he with rfl | rfl
      · unfold expectsMemberValue at hv
        rw [ha, ← h1] at hv
        exact absurd rfl hv
      · cases h
    · exact (Bl.bind consumePeeked_bl.toT (fun _ => Bl.bind (Bl.modify (g := fun s => { s with expectsMemberName := false }) fun _ => rfl) fun _ => onContainerEnd_bl) s hw.st).post
        fun _ _ h => Eq.trans h hw.st

theorem endContainer_known (hw : Ws st s) (he : AtEnd s) : Cp st d endContainer s (fun _ s' => s'.settings = st) :=
  Wp.get (Wp.ite (fun _ => endArray_known hw he) fun _ => endObject_known hw he)

section
variable (hr : d.reads = true) (ht : d.tokens = true)
include hr ht

theorem hasNext_known (hw : Ws st s) : Cp st d hasNext s (fun b s' => Ws st s' ∧ (b = false → AtEnd s')) := by
  unfold hasNext
  refine Wp.get (Wp.ite (fun _ => ⟨trivial, hw.st⟩) fun _ => ?_)
  refine Wp.bind' (P := fun o s' => Ws st s' ∧ s'.peeked = o ∧ (o = none → s'.stack = [])) ?_ ?_
  · refine Wp.ite (fun h => ?_) fun h => ?_
    · refine Wp.ite (fun _ => ⟨trivial, hw.st⟩) fun _ => Wp.ite (fun _ => ⟨trivial, hw.st⟩) fun _ => ?_
      refine (both' hw.st (peekInternalOptional_up hw.w) (pio_bl hr ht).toT).post ?_
      rintro o s1 ⟨⟨h1, h2, h3, -⟩, h4⟩
      exact ⟨⟨h1, h4⟩, h3, fun _ => h2.stack.trans (List.isEmpty_iff.1 h)⟩
    · have hi : s.stack ≠ [] := fun hx => by rw [hx] at h; exact h rfl
      refine Wp.bind' (both (peekInternal_up hw.w) (pi_inside hr ht hw.st hi)) ?_
      rintro p s1 ⟨⟨h1, h2, h3, -⟩, h4⟩
      exact ⟨⟨h1, h4.1.trans hw.st⟩, h3, nofun⟩
  · rintro o s1 ⟨h1, h2, h3⟩
    cases o with
    | none => exact ⟨h1, fun _ => .inl (h3 rfl)⟩
    | some p =>
      refine Wp.get (Wp.ite (fun _ => ⟨trivial, h1.st⟩) fun _ => ⟨h1, fun h => .inr ⟨p, h2, ?_⟩⟩)
      cases p <;> first | exact .inl rfl | exact .inr rfl | cases h

variable (hf : d.structures .fewerElementsThanExpected = true) (hs : d.strings = true) (hn : d.numbers = true) (hc : d.starts = true)
include hf hs hn hc

omit hn hc in
theorem skipName_cp (hw : Ws st s) : Cp st d skipName s (fun _ s' => Ws st s') := by
  refine (both' hw.st (skipName_up hw.w) (skipName_bl hr ht hf hs).toT).post ?_
  rintro _ s1 ⟨h1, h2⟩
  exact ⟨h1.1, h2⟩

theorem skipValueLoop_cp : ∀ {n k : Nat} {s : St}, Ws st s → Cp st d (skipValueLoop n k) s (fun _ s' => s'.settings = st)
  | 0, _, _, hw => ⟨trivial, hw.st⟩
  | n + 1, k, s, hw => by
    unfold skipValueLoop
    refine Wp.bind' (P := fun b s' => Ws st s' ∧ (b = true → AtEnd s')) ?_ ?_
    · unfold atContainerEnd
      refine Wp.ite (fun _ => Wp.bind' (hasNext_known hr ht hw) ?_) fun _ => ⟨hw, nofun⟩
      rintro b s1 ⟨h1, h2⟩
      exact ⟨h1, fun h => h2 (by simpa using h)⟩
    rintro b s1 ⟨h1, h2⟩
    refine Wp.bind' (P := fun _ s' => Ws st s') ?_ ?_
    · refine Wp.ite (fun hb => ?_) fun _ => ?_
      · refine Wp.bind' (both (endContainer_up h1.w) (endContainer_known h1 (h2 hb))) ?_
        rintro _ s2 ⟨h3, h4⟩
        exact ⟨h3.1, h4⟩
      · refine Wp.bind' (P := fun _ s' => Ws st s') ?_ ?_
        · exact Wp.get (Wp.ite (fun _ => skipName_cp hr ht hf hs h1) fun _ => h1)
        · rintro _ s2 h3
          refine Wp.bind' (both (skipValueStart_up h3.w) (skipValueStart_cp hr ht hf hs hn hc h3)) ?_
          rintro _ s3 ⟨h4, h5⟩
          exact ⟨h4.1, h5⟩
    · rintro k' s2 h3
      exact Wp.ite (fun _ => h3.st) fun _ => skipValueLoop_cp h3

theorem skipValue_cp (hw : Ws st s) : Cp st d skipValue s (fun _ s' => Ws st s') := by
  refine (both (skipValue_up hw.w) (Q' := fun _ s' => s'.settings = st) ?_).post fun _ _ h => ⟨h.1.1, h.2⟩
  exact Wp.get (Wp.ite (fun _ => ⟨trivial, hw.st⟩) fun _ => skipValueLoop_cp hr ht hf hs hn hc hw)

theorem skipItems_cp : ∀ {n : Nat} {s : St}, Ws st s → Cp st d (skipItems n) s (fun _ s' => Ws st s' ∧ AtEnd s')
  | 0, _, hw => ⟨trivial, hw.st⟩
  | n + 1, s, hw => by
    unfold skipItems
    refine Wp.bind' (hasNext_known hr ht hw) ?_
    rintro b s1 ⟨h1, h2⟩
    refine Wp.ite (fun _ => Wp.bind' (skipValue_cp hr ht hf hs hn hc h1) fun _ s2 h3 => skipItems_cp h3) fun hb => ⟨h1, h2 (by simpa using hb)⟩

theorem skipMembers_cp : ∀ {n : Nat} {s : St}, Ws st s → Cp st d (skipMembers n) s (fun _ s' => Ws st s' ∧ AtEnd s')
  | 0, _, hw => ⟨trivial, hw.st⟩
  | n + 1, s, hw => by
    unfold skipMembers
    refine Wp.bind' (hasNext_known hr ht hw) ?_
    rintro b s1 ⟨h1, h2⟩
    refine Wp.ite (fun _ => Wp.bind' (skipName_cp hr ht hf hs h1) fun _ s2 h3 => Wp.bind' (skipValue_cp hr ht hf hs hn hc h3) fun _ s2 h3 => skipMembers_cp h3)
      fun hb => ⟨h1, h2 (by simpa using hb)⟩

theorem finishArray_cp (hw : Ws st s) : Cp st d finishArray s (fun _ s' => Ws st s') := by
  refine (both (finishArray_up hw.w) (Q' := fun _ s' => s'.settings = st) ?_).post fun _ _ h => ⟨h.1.1, h.2⟩
  exact Wp.get (Wp.bind' (skipItems_cp hr ht hf hs hn hc hw) fun _ _ h => endArray_known h.1 h.2)

theorem finishObject_cp (hw : Ws st s) : Cp st d finishObject s (fun _ s' => Ws st s') := by
  refine (both (finishObject_up hw.w) (Q' := fun _ s' => s'.settings = st) ?_).post fun _ _ h => ⟨h.1.1, h.2⟩
  exact Wp.get (Wp.bind' (skipMembers_cp hr ht hf hs hn hc hw) fun _ _ h => endObject_known h.1 h.2)

theorem skipToTopLevelLoop_cp : ∀ {n : Nat} {s : St}, Ws st s → Cp st d (skipToTopLevelLoop n) s (fun _ s' => Ws st s')
  | 0, _, hw => Wp.get (Wp.ite (fun _ => hw) fun _ => ⟨trivial, hw.st⟩)
  | n + 1, s, hw => by
    unfold skipToTopLevelLoop
    refine Wp.get ?_
    split
    · exact hw
    · exact Wp.bind' (finishArray_cp hr ht hf hs hn hc hw) fun _ _ h => skipToTopLevelLoop_cp h
    · exact Wp.bind' (finishObject_cp hr ht hf hs hn hc hw) fun _ _ h => skipToTopLevelLoop_cp h

theorem skipToTopLevel_cp (hw : Ws st s) : Cp st d skipToTopLevel s (fun _ s' => Ws st s') := by
  unfold skipToTopLevel
  refine Wp.get (Wp.ite (fun _ => ⟨trivial, hw.st⟩) fun _ => Wp.bind' (P := fun _ s' => Ws st s') ?_ fun _ _ h => skipToTopLevelLoop_cp hr ht hf hs hn hc h)
  exact Wp.ite (fun _ => skipValue_cp hr ht hf hs hn hc hw) fun _ => hw

theorem seekItems_cp {i : Nat} (hi : d.structures (.tooShortArray i) = true) : ∀ {n : Nat} {s : St}, Ws st s → Cp st d (seekItems i n) s (fun _ s' => Ws st s')
  | 0, s, hw => by
    unfold seekItems
    exact Wp.bind' (hasNext_known hr ht hw) fun b s1 h1 => Wp.ite (fun _ => h1.1) fun _ => ⟨hi, h1.1.st⟩
  | n + 1, s, hw => by
    unfold seekItems
    exact Wp.bind' (hasNext_known hr ht hw) fun b s1 h1 => Wp.ite (fun _ => Wp.bind' (skipValue_cp hr ht hf hs hn hc h1.1) fun _ _ h => seekItems_cp hi h) fun _ => ⟨hi, h1.1.st⟩

theorem seekMembers_cp {t : Text} (hi : d.structures (.missingObjectMember t) = true) : ∀ {n : Nat} {s : St}, Ws st s → Cp st d (seekMembers t n) s (fun _ s' => Ws st s')
  | 0, _, hw => ⟨trivial, hw.st⟩
  | n + 1, s, hw => by
    unfold seekMembers
    refine Wp.bind' (hasNext_known hr ht hw) fun b s1 h1 => Wp.ite (fun _ => ?_) fun _ => ⟨hi, h1.1.st⟩
    refine Wp.bind' (both' h1.1.st (nextName_up h1.1.w) (nextName_bl hr ht hf hs).toT) ?_
    rintro m s2 ⟨h2, h3⟩
    have h4 : Ws st s2 := ⟨h2.1, h3⟩
    exact Wp.ite (fun _ => h4) fun _ => Wp.bind' (skipValue_cp hr ht hf hs hn hc h4) fun _ _ h => seekMembers_cp hi h

/-- the errors of `seek_to` for a piece -/
def PieceOk (d : Does) : PathPiece → Prop
  | .arrayItem i => d.structures (.tooShortArray i) = true ∧ d.wants .array = true
  | .objectMember n => d.structures (.missingObjectMember n) = true ∧ d.wants .object = true

theorem seekToLoop_cp : ∀ {ps : List PathPiece} {s : St}, (∀ p ∈ ps, PieceOk d p) → Ws st s → Cp st d (seekToLoop ps) s (fun _ s' => Ws st s')
  | [], _, _, hw => hw
  | .arrayItem i :: ps, s, hp, hw => by
    obtain ⟨h1, h2⟩ := hp _ (List.mem_cons_self ..)
    refine Wp.bind' ?_ fun _ s1 h => seekToLoop_cp (fun p h => hp p (List.mem_cons_of_mem _ h)) h
    refine Wp.bind' (both' hw.st (beginArray_up hw.w) (beginArray_bl hr ht hf h2 hc)) fun _ s1 h => ?_
    exact seekItems_cp hr ht hf hs hn hc h1 ⟨h.1.1, h.2⟩
  | .objectMember n :: ps, s, hp, hw => by
    obtain ⟨h1, h2⟩ := hp _ (List.mem_cons_self ..)
    refine Wp.bind' ?_ fun _ s1 h => seekToLoop_cp (fun p h => hp p (List.mem_cons_of_mem _ h)) h
    refine Wp.bind' (both' hw.st (beginObject_up hw.w) (beginObject_bl hr ht hf h2 hc)) fun _ s1 h => ?_
    exact Wp.get (seekMembers_cp hr ht hf hs hn hc h1 ⟨h.1.1, h.2⟩)

theorem seekTo_cp {ps : List PathPiece} (hp : ∀ p ∈ ps, PieceOk d p) (hw : Ws st s) : Cp st d (seekTo ps) s (fun _ s' => Ws st s') :=
  Wp.bind' (peek_known hr ht hf hw) fun _ _ h => seekToLoop_cp hr ht hf hs hn hc hp h.1

theorem seekBackLoop_cp : ∀ {ps : List PathPiece} {s : St}, Ws st s → Cp st d (seekBackLoop ps) s (fun _ s' => Ws st s')
  | [], _, hw => hw
  | .arrayItem _ :: _, _, hw => Wp.bind' (finishArray_cp hr ht hf hs hn hc hw) fun _ _ h => seekBackLoop_cp h
  | .objectMember _ :: _, _, hw => Wp.bind' (finishObject_cp hr ht hf hs hn hc hw) fun _ _ h => seekBackLoop_cp h

end

end Verif.Kinds
