import Verif.Proofs.After.Frame
import Verif.Proofs.Abs.Calls
/-!
# Reading of bytes in arbitrary states

The source may end regularly or with an error. Errors are only syntax and IO errors, i.e. there are no internal panics; also after
an error only the source and the position have changed.
-/

namespace Verif.Abs
open Reader Sim Utf8 Json

/-- only errors because of the data, which do not change anything except for the source and the position -/
abbrev LoE (s : St) (e : RErr) (s' : St) : Prop := e.data ∧ Fr s s'

/-- `Wp` for low level functions in arbitrary states -/
abbrev Low {α : Type} (m : R AbsSrc α) (s : St) (Q : α → St → Prop) : Prop := Wp m s (fun a s' => Fr s s' ∧ Q a s') (LoE s)

theorem noTerm_fr {s : St} : Fr (noTerm s) s := ⟨rfl, rfl, rfl, rfl, rfl, rfl, rfl⟩

theorem RRel_of_noTerm' {p : Phase} {k : Nat} {s : St} (h : s.src.term = some k) (hp : AbsSrc.known p = true → s.src.rest ≠ []) :
    (AbsSrc.truncSim k [] none s.settings).RRel p s (noTerm s) := by
  obtain ⟨⟨r, t, acc⟩, pk, e, mn, stk, sa, l, col, b, pa, se⟩ := s
  cases h
  refine RRel.mk (S := AbsSrc.truncSim k [] none se) ?_ ..
  have := AbsSrc.TRel.mk (k := k) (more := []) (t := none) (p := p) r acc hp
  rw [List.append_nil] at this
  exact this

theorem noTerm_of_RRel' {p : Phase} {k : Nat} {se : Settings} {s s2 : St} (h : (AbsSrc.truncSim k [] none se).RRel p s s2) : s2 = noTerm s := by
  obtain ⟨hr, pk, e, m, stk, sa, l, col, b, pa⟩ := h
  obtain ⟨r, acc, h⟩ := hr
  rw [List.append_nil]
  rfl

/-- what holds for inputs which end regularly holds for all inputs -/
theorem Low.lift {α : Type} {p : Phase} {Qp : α → Phase} {m : R AbsSrc α} {s : St} {Q : α → St → Prop}
    (hT : ∀ k, (AbsSrc.truncSim k [] none s.settings).T p m m Qp) (hp : AbsSrc.known p = true → s.src.rest ≠ []) (hF : Frame m)
    (h : Lo m (noTerm s) Q) (hQ : ∀ a s', Q a s' → s'.src.term = none) : Low m s (fun a s' => Q a (noTerm s')) := by
  unfold Low Wp
  cases ht : s.src.term with
  | none =>
    rw [noTerm_of_none ht] at h
    cases h1 : m.run s with
    | ok a s' =>
      have h2 := h.ok h1
      exact ⟨hF.ok h1, by dsimp only; rw [noTerm_of_none (hQ _ _ h2)]; exact h2⟩
    | err e s' =>
      refine ⟨?_, hF.err h1⟩
      have := h.err h1
      cases e <;> trivial
  | some k =>
    have hr := hT k _ _ (RRel_of_noTerm' ht hp)
    unfold RelAt at hr
    have hx : ∀ {e}, AbsSrc.TX k [] e → e.data := by
      rintro e (⟨l, rfl⟩ | ⟨h, _⟩)
      · trivial
      · exact absurd rfl h
    cases h1 : m.run s with
    | ok a t1 =>
      refine ⟨hF.ok h1, ?_⟩
      cases h2 : m.run (noTerm s) with
      | ok b t2 =>
        rw [h1, h2] at hr
        obtain ⟨rfl, hr⟩ := hr
        have := h.ok h2
        rw [noTerm_of_RRel' hr] at this
        exact this
      | err e t2 => rw [h1, h2] at hr; exact hr.elim
    | err e1 t1 =>
      refine ⟨?_, hF.err h1⟩
      cases h2 : m.run (noTerm s) with
      | ok b t2 => rw [h1, h2] at hr; exact hx hr
      | err e2 t2 =>
        rw [h1, h2] at hr
        rcases hr with hr | ⟨rfl, _⟩
        · exact hx hr
        · have := h.err h2
          cases e1 <;> trivial

variable {s : St}

theorem skipWhitespace_low {k : Option SyntaxKind} : Low (skipWhitespace k) s (fun o s' =>
    s'.src.rest.length ≤ s.src.rest.length ∧ s'.src.rest.head? = o) := by
  refine (Low.lift (p := .idle false) (fun _ => skipWhitespaceT k) (fun h => by cases h) frame_ws (skipWhitespace_lo (s := noTerm s) rfl) ?_).post ?_
  · rintro o s' (⟨w, b, t, _, _, _, _, rfl⟩ | ⟨_, _, w, _, _, rfl⟩) <;> rfl
  · rintro o s' ⟨hf, h⟩
    refine ⟨hf, ?_⟩
    rcases h with ⟨w, b, t, _, _, rfl, h, h'⟩ | ⟨_, rfl, w, _, h, h'⟩
    · have h' : s'.src.rest = b :: t := congrArg (fun x : St => x.src.rest) h'
      have h : s.src.rest = w.bytes ++ b :: t := h
      rw [h', h]
      exact ⟨by simp, rfl⟩
    · have h' : s'.src.rest = [] := congrArg (fun x : St => x.src.rest) h'
      rw [h']
      exact ⟨Nat.zero_le _, rfl⟩

theorem skipWhitespaceNoEof_low {k : SyntaxKind} : Low (skipWhitespaceNoEof k) s (fun b s' =>
    s'.src.rest.length ≤ s.src.rest.length ∧ s'.src.rest.head? = some b) := by
  refine (Low.lift (p := .idle false) (fun _ => skipWhitespaceNoEofT k) (fun h => by cases h) frame_ws' (skipWhitespaceNoEof_lo (s := noTerm s) rfl) ?_).post ?_
  · rintro o s' ⟨w, t, _, _, _, rfl⟩; rfl
  · rintro b s' ⟨hf, w, t, _, _, h, h'⟩
    refine ⟨hf, ?_⟩
    have h' : s'.src.rest = b :: t := congrArg (fun x : St => x.src.rest) h'
    have h : s.src.rest = w.bytes ++ b :: t := h
    dsimp only
    rw [h', h]
    exact ⟨by simp, rfl⟩

theorem verifyValueSeparator_low {k : SyntaxKind} : Low (verifyValueSeparator k) s (fun _ s' => s'.src = s.src) := by
  have := (Low.lift (p := .idle false) (s := s) (fun _ => verifyValueSeparatorG (P := .idle false) (P' := .idle true) peekByteK k (.inl inferInstance)) (fun h => by cases h) frame_verify
    (verifyValueSeparator_lo (s := noTerm s) (Q := fun _ s' => s' = noTerm s) rfl fun _ => rfl) (by rintro _ _ rfl; rfl))
  unfold Low Wp at *
  cases h : (verifyValueSeparator k).run s with
  | err e s' => rw [h] at this; exact this
  | ok a s' =>
    refine ⟨(frame_verify (k := k)).ok h, ?_⟩
    unfold verifyValueSeparator at h
    obtain ⟨o, s1, h1, h2⟩ := M.bind_eq_ok.1 h
    have hs : s1 = s := by
      obtain ⟨⟨r, t, acc⟩, pk, e, mn, stk, sa, l, col, b, pa, se⟩ := s
      cases r with
      | cons x r => cases h1; rfl
      | nil => cases t <;> cases h1; rfl
    subst hs
    cases o with
    | none => cases h2; rfl
    | some b =>
      dsimp only at h2
      split at h2
      · cases h2; rfl
      · cases h2

theorem consumeLiteral_low {lit : Bytes} : Low (consumeLiteral lit) s (fun _ s' => s'.src.rest.length + lit.length = s.src.rest.length) := by
  refine (Low.lift (p := .idle false) (fun _ => consumeLiteralT lit) (fun h => by cases h) frame_lit (consumeLiteral_lo (s := noTerm s) rfl) ?_).post ?_
  · rintro _ _ ⟨r, _, _, rfl⟩; rfl
  · rintro _ s' ⟨hf, r, h, _, h'⟩
    refine ⟨hf, ?_⟩
    have h' : s'.src.rest = r := congrArg (fun x : St => x.src.rest) h'
    have h : s.src.rest = lit ++ r := h
    dsimp only
    rw [h', h, List.length_append]
    omega

theorem readStringBytes_low : Low readStringBytes s (fun p s' => s'.src.rest.length + 1 ≤ s.src.rest.length ∧
    (p = (true, []) ∨ ∃ c : Char, p = (false, String.utf8EncodeChar c))) := by
  refine (Low.lift (p := .idle false) (fun _ => readStringBytesT) (fun h => by cases h) frame_readStringBytes (readStringBytes_lo (s := noTerm s) rfl) ?_).post ?_
  · rintro _ _ (⟨r, _, _, rfl⟩ | ⟨i, c, r, _, _, _, rfl⟩) <;> rfl
  · rintro p s' ⟨hf, h⟩
    refine ⟨hf, ?_⟩
    rcases h with ⟨r, h, rfl, h'⟩ | ⟨i, c, r, hi, h, rfl, h'⟩
    · have h' : s'.src.rest = r := congrArg (fun x : St => x.src.rest) h'
      have h : s.src.rest = 0x22 :: r := h
      rw [h', h]
      exact ⟨Nat.le_refl _, .inl rfl⟩
    · have h' : s'.src.rest = r := congrArg (fun x : St => x.src.rest) h'
      have h : s.src.rest = i.bytes ++ r := h
      have := List.length_pos_iff.2 (StrItem.bytes_ne_nil i)
      rw [h', h, List.length_append]
      exact ⟨by omega, .inr ⟨c, rfl⟩⟩

theorem readString_low (rq : Bool) : Low (readString rq) s (fun _ s' => s'.src.rest.length + 1 ≤ s.src.rest.length ∧ ∃ t, s'.src.acc = enc t) := by
  refine (Low.lift (p := .idle false) (fun _ => readStringT rq) (fun h => by cases h) frame_readString (readString_lo (s := noTerm s) rfl rq) ?_).post ?_
  · rintro _ _ ⟨x, r, _, _, rfl⟩; rfl
  · rintro _ s' ⟨hf, x, r, hx, h, h'⟩
    refine ⟨hf, ?_⟩
    have h1 : s'.src.rest = r := congrArg (fun x : St => x.src.rest) h'
    have h2 : s'.src.acc = enc x.text := congrArg (fun x : St => x.src.acc) h'
    have h : s.src.rest = x.body ++ 0x22 :: r := h
    dsimp only
    rw [h1, h, List.length_append, List.length_cons]
    exact ⟨by omega, _, h2⟩

theorem skipAll_low : Low skipAllStringBytes s (fun _ s' => s'.src.rest.length + 1 ≤ s.src.rest.length) := by
  refine (Low.lift (p := .idle false) (fun _ => skipAllStringBytesT) (fun h => by cases h) frame_skipAllStringBytes (skipAll_lo (s := noTerm s) rfl) ?_).post ?_
  · rintro _ _ ⟨x, r, _, _, rfl⟩; rfl
  · rintro _ s' ⟨hf, x, r, hx, h, h'⟩
    refine ⟨hf, ?_⟩
    have h1 : s'.src.rest = r := congrArg (fun x : St => x.src.rest) h'
    have h : s.src.rest = x.body ++ 0x22 :: r := h
    dsimp only
    rw [h1, h, List.length_append, List.length_cons]
    omega

theorem expDigits_pos {bs : Bytes} {k : Nat} (h : ExpDigits bs k) : 0 < bs.length := by
  have := h.isNumber
  cases bs with
  | nil => exact absurd this (by rw [← JsonNumber.isValidJsonNumber_iff]; decide)
  | cons => exact Nat.succ_pos _

theorem collectNumber_low (hr : s.src.rest ≠ []) : Low (consumeNumber (liftS ByteSource.vNew) (liftS ByteSource.vConsume) vPeek) s (fun _ s' =>
    s'.src.rest.length + 1 ≤ s.src.rest.length ∧ ∃ t, s'.src.acc = enc t) := by
  cases hs : s.src.rest with
  | nil => exact absurd hs hr
  | cons b t =>
    refine (Low.lift (p := .idle false) (fun _ => consumeNumberT (p := .value true false) (Sim.liftS (Sim.vNew _ true)) (Sim.liftS (Sim.vConsume _)) vPeekT) (fun h => by cases h)
      (frame_consumeNumber (.lift _) (.lift _) frame_vPeek) (collectNumber_lo (s := noTerm s) rfl hs) ?_).post ?_
    · rintro _ _ ⟨bs, r, _, _, _, rfl⟩; rfl
    · rintro _ s' ⟨hf, bs, r, hk, h, _, h'⟩
      refine ⟨hf, ?_⟩
      have h1 : s'.src.rest = r := congrArg (fun x : St => x.src.rest) h'
      have h2 : s'.src.acc = bs := congrArg (fun x : St => x.src.acc) h'
      have h : s.src.rest = bs ++ r := h
      have := expDigits_pos hk
      dsimp only
      rw [← hs, h1, h2, h, List.length_append]
      exact ⟨by omega, _, (asciiText_enc (isNumber_plain hk.isNumber)).symm⟩

theorem skipNumberBytes_low (hr : s.src.rest ≠ []) : Low (consumeNumber (pure ()) skipPeekedByte peekByte) s (fun _ s' =>
    s'.src.rest.length + 1 ≤ s.src.rest.length) := by
  cases hs : s.src.rest with
  | nil => exact absurd hs hr
  | cons b t =>
    refine (Low.lift (p := .idle false) (fun _ => consumeNumberT (p := .idle true) (pureP _) skipPeeked peekByteK) (fun h => by cases h)
      (frame_consumeNumber (All.pure _) frame_skipPeekedByte frame_peekByte) (skipNumberBytes_lo (s := noTerm s) rfl hs) ?_).post ?_
    · rintro _ _ ⟨bs, r, _, _, _, rfl⟩; rfl
    · rintro _ s' ⟨hf, bs, r, hk, h, _, h'⟩
      refine ⟨hf, ?_⟩
      have h1 : s'.src.rest = r := congrArg (fun x : St => x.src.rest) h'
      have h : s.src.rest = bs ++ r := h
      have := expDigits_pos hk
      dsimp only
      rw [← hs, h1, h, List.length_append]
      omega

end Verif.Abs
