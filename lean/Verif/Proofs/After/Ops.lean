import Verif.Proofs.After.Low
/-!
# All methods in arbitrary states

The states need not belong to a prefix of a valid document: they only have to be consistent (`W`). Consistent states are the ones which remain when
the reader is used after errors. In consistent states no method causes an internal panic and all loops end.
-/

namespace Verif.Abs.After
open Reader Sim Utf8 Json

/-- the JSON path has the same length as the stack and each piece belongs to the kind of container -/
def PathFits : List PathPiece → List StackValue → Prop
  | [], [] => True
  | .arrayItem _ :: ps, .array :: st => PathFits ps st
  | .objectMember _ :: ps, .object :: st => PathFits ps st
  | _, _ => False

/-- consistency of the JSON path and of the flag for member names -/
structure WF (s : St) : Prop where
  path : ∀ p, s.path = some p → PathFits p s.stack
  name : s.expectsMemberName = true → isInObject s = true

/-- consistent states -/
structure W (s : St) : Prop extends WF s where
  tok : ∀ p, s.peeked = some p → (p == .nameStart || p == .objectEnd) = s.expectsMemberName
  num : s.peeked = some .numberStart → s.src.rest ≠ []

/-- Allowed errors and what holds after them -/
def G (e : RErr) (s' : St) : Prop :=
  match e with
  | .syntax _ _ => WF s' ∧ s'.peeked = none
  | .io _ _ => WF s' ∧ s'.peeked = none
  | .panic (.usage _) => True
  | .panic (.internal _) => False
  | .outOfFuel => False
  | _ => W s'

abbrev Up {α : Type} (m : R AbsSrc α) (s : St) (Q : α → St → Prop) : Prop := Wp m s Q G

theorem WF.fr {s s' : St} (h : WF s) (f : Fr s s') : WF s' := by
  refine ⟨fun p hp => ?_, fun hn => ?_⟩
  · rw [f.stack]; exact h.path p (f.path ▸ hp)
  · unfold isInObject; rw [f.stack]; exact h.name (f.emn ▸ hn)

theorem WF.w {s : St} (h : WF s) (hp : s.peeked = none) : W s := ⟨h, fun p h => (by rw [hp] at h; cases h), fun h => (by rw [hp] at h; cases h)⟩

theorem Low.up {α : Type} {m : R AbsSrc α} {s : St} {Q : α → St → Prop} (h : Low m s Q) (hw : WF s) (hp : s.peeked = none) :
    Up m s (fun a s' => Fr s s' ∧ Q a s') := by
  refine h.mono (fun _ _ h => h) ?_
  rintro e s' ⟨hd, hf⟩
  cases e <;> first | exact hd.elim | exact ⟨hw.fr hf, hf.peeked.trans hp⟩

theorem Up.syn {α : Type} {k : SyntaxKind} {s : St} {Q : α → St → Prop} (hw : WF s) (hp : s.peeked = none) : Up (syntaxErr k) s Q := Wp.of_err rfl ⟨hw, hp⟩
theorem Up.structure {α : Type} {k : StructureKind} {s : St} {Q : α → St → Prop} (hw : W s) : Up (structureErr k) s Q := Wp.of_err rfl hw
theorem Up.usage {α : Type} {k : UsagePanic} {s : St} {Q : α → St → Prop} : Up (usagePanic k) s Q := Wp.of_err rfl trivial

/-- consumed token, not counting the one of a number -/
def pk : Option Peeked → Nat
  | none => 0
  | some .numberStart => 0
  | some _ => 1

/-- decreases with each value and each member name -/
def pot (s : St) : Nat := s.src.rest.length + pk s.peeked

theorem pk_le (o : Option Peeked) : pk o ≤ 1 := by cases o with
  | none => exact Nat.zero_le _
  | some p => cases p <;> decide

theorem pot_lt_fuel (s : St) : pot s < fuel s := by
  have := pk_le s.peeked
  show s.src.rest.length + pk s.peeked < s.src.rest.length + 2
  omega

theorem skip_run {s : St} {b : UInt8} (h : s.src.rest.head? = some b) :
    ∃ t, s.src.rest = b :: t ∧ (skipPeekedByte : R AbsSrc _).run s = .ok () (setRest s t) := by
  obtain ⟨⟨r, t, acc⟩, pk, e, mn, stk, sa, l, col, bp, pa, se⟩ := s
  cases r with
  | nil => cases h
  | cons x r => cases h; exact ⟨r, rfl, rfl⟩

theorem fr_setRest (s : St) (t : Bytes) : Fr s (setRest s t) := ⟨rfl, rfl, rfl, rfl, rfl, rfl, rfl⟩

variable {s : St}

theorem afterName_up (hw : WF s) (hp : s.peeked = none) : Up afterName s (fun _ s' => Fr s s' ∧ s'.src.rest.length ≤ s.src.rest.length) := by
  unfold afterName
  refine Wp.bind' (Low.up skipWhitespaceNoEof_low hw hp) ?_
  rintro b s1 ⟨hf, hl, hh⟩
  have hp1 := hf.peeked.trans hp
  refine Wp.ite (fun _ => ?_) fun _ => Up.syn (hw.fr hf) hp1
  obtain ⟨t, h1, h2⟩ := skip_run hh
  refine Wp.bind_ok h2 (Wp.modify ⟨hf.trans ⟨rfl, rfl, rfl, rfl, rfl, rfl, rfl⟩, ?_⟩)
  show t.length ≤ _
  rw [h1] at hl
  exact Nat.le_trans (Nat.le_succ _) hl

/-- what is known about the classified token -/
def Tok (s : St) (p : Peeked × Bool) (s' : St) : Prop :=
  (p.1 == .nameStart || p.1 == .objectEnd) = s.expectsMemberName ∧
  ((p.2 = true ∧ s'.src.rest = s.src.rest ∧ p.1 ≠ .numberStart) ∨ (p.2 = false ∧ p.1 = .numberStart ∧ s'.src.rest = s.src.rest) ∨
    (p.2 = false ∧ p.1 ≠ .numberStart ∧ s'.src.rest.length + 1 ≤ s.src.rest.length))

theorem classify_up {b : UInt8} (hw : WF s) (hp : s.peeked = none) : Up (classify b) s (fun p s' => Fr s s' ∧ Tok s p s') := by
  have lit : ∀ {l : Bytes} {p : Peeked}, 1 ≤ l.length → p ≠ .nameStart → p ≠ .objectEnd → p ≠ .numberStart → s.expectsMemberName = false →
      Up (do consumeLiteral l; pure (p, false) : R AbsSrc _) s (fun p s' => Fr s s' ∧ Tok s p s') := by
    intro l p hl h1 h2 h3 he
    refine Wp.bind' (Low.up consumeLiteral_low hw hp) ?_
    rintro _ s1 ⟨hf, h⟩
    refine Wp.pure ⟨hf, ?_, .inr (.inr ⟨rfl, h3, ?_⟩)⟩
    · rw [he]; simp [h1, h2]
    · omega
  unfold classify
  refine Wp.get ?_
  refine Wp.ite (fun he => ?_) fun he => ?_
  · refine Wp.ite (fun _ => ?_) fun _ => Wp.ite (fun _ => ?_) fun _ => Up.syn hw hp
    · exact Wp.pure ⟨.refl _, he.symm, .inl ⟨rfl, rfl, nofun⟩⟩
    · exact Wp.pure ⟨.refl _, he.symm, .inl ⟨rfl, rfl, nofun⟩⟩
  · have he : s.expectsMemberName = false := by simpa using he
    have adv : ∀ {p : Peeked}, p ≠ .nameStart → p ≠ .objectEnd → p ≠ .numberStart → Up (pure (p, true) : R AbsSrc _) s (fun p s' => Fr s s' ∧ Tok s p s') := by
      intro p h1 h2 h3
      exact Wp.pure ⟨.refl _, by rw [he]; simp [h1, h2], .inl ⟨rfl, rfl, h3⟩⟩
    have num : Up (pure (.numberStart, false) : R AbsSrc _) s (fun p s' => Fr s s' ∧ Tok s p s') :=
      Wp.pure ⟨.refl _, by rw [he]; rfl, .inr (.inl ⟨rfl, rfl, rfl⟩)⟩
    have syn : ∀ {k : SyntaxKind}, Up (syntaxErr k : R AbsSrc _) s (fun p s' => Fr s s' ∧ Tok s p s') := Up.syn hw hp
    refine Wp.ite (fun _ => adv nofun nofun nofun) fun _ => Wp.ite (fun _ => Wp.ite (fun _ => syn) fun _ => adv nofun nofun nofun) fun _ =>
      Wp.ite (fun _ => adv nofun nofun nofun) fun _ => Wp.ite (fun _ => syn) fun _ => Wp.ite (fun _ => adv nofun nofun nofun) fun _ =>
      Wp.ite (fun _ => num) fun _ => Wp.ite (fun _ => lit (by decide) nofun nofun nofun he) fun _ => Wp.ite (fun _ => lit (by decide) nofun nofun nofun he) fun _ =>
      Wp.ite (fun _ => lit (by decide) nofun nofun nofun he) fun _ => Wp.ite (fun _ => syn) fun _ => Wp.ite (fun _ => syn) fun _ => syn

/-- Everything except for the source, the position and the peeked token is unchanged -/
structure Fp (s s' : St) : Prop where
  isEmpty : s'.isEmpty = s.isEmpty
  emn : s'.expectsMemberName = s.expectsMemberName
  stack : s'.stack = s.stack
  sra : s'.stringReaderActive = s.stringReaderActive
  path : s'.path = s.path
  settings : s'.settings = s.settings

theorem Fp.refl (s : St) : Fp s s := ⟨rfl, rfl, rfl, rfl, rfl, rfl⟩
theorem Fp.trans {a b c : St} (h : Fp a b) (h' : Fp b c) : Fp a c :=
  ⟨h'.1.trans h.1, h'.2.trans h.2, h'.3.trans h.3, h'.4.trans h.4, h'.5.trans h.5, h'.6.trans h.6⟩
theorem _root_.Verif.Reader.Fr.fp {s s' : St} (h : Fr s s') : Fp s s' := ⟨h.2, h.3, h.4, h.5, h.6, h.7⟩

theorem WF.fp {s s' : St} (h : WF s) (f : Fp s s') : WF s' := by
  refine ⟨fun p hp => ?_, fun hn => ?_⟩
  · rw [f.stack]; exact h.path p (f.path ▸ hp)
  · unfold isInObject; rw [f.stack]; exact h.name (f.emn ▸ hn)

/-- the result of peeking -/
def Pk (s : St) (o : Option Peeked) (s' : St) : Prop := W s' ∧ Fp s s' ∧ s'.peeked = o ∧ pot s' ≤ pot s

theorem pk_tok {p : Peeked} (h : p ≠ .numberStart) : pk (some p) = 1 := by cases p <;> first | rfl | exact absurd rfl h

theorem finishPeek_up {c : Bool} {comma : Option (Nat × Nat × Nat)} {p : Peeked × Bool} {s0 : St} {b : UInt8} (hw : WF s) (hp : s.peeked = none)
    (hh : s0.src.rest.head? = some b) (h0 : s0.expectsMemberName = s.expectsMemberName) (ht : Tok s0 p s) :
    Up (finishPeek c comma p) s (fun o s' => W s' ∧ Fp s s' ∧ s'.peeked = o ∧ o.isSome ∧ pot s' ≤ s0.src.rest.length) := by
  unfold finishPeek
  refine Wp.get ?_
  dsimp only
  have key : Up (do (if p.2 then skipPeekedByte else pure ()); M.modify fun s => { s with peeked := some p.1 }; pure (some p.1) : R AbsSrc (Option Peeked)) s
      (fun o s' => W s' ∧ Fp s s' ∧ s'.peeked = o ∧ o.isSome ∧ pot s' ≤ s0.src.rest.length) := by
    obtain ⟨ht, h | h | h⟩ := ht
    · obtain ⟨h1, h2, h3⟩ := h
      rw [if_pos h1]
      obtain ⟨t, e1, e2⟩ := skip_run (s := s) (b := b) (by rw [h2]; exact hh)
      refine Wp.bind_ok e2 (Wp.bind_ok rfl (Wp.pure ⟨⟨⟨hw.path, hw.name⟩, ?_, ?_⟩, ⟨rfl, rfl, rfl, rfl, rfl, rfl⟩, rfl, rfl, ?_⟩))
      · rintro _ ⟨⟩; exact ht.trans h0
      · intro h; exact absurd (Option.some.inj h) h3
      · show t.length + pk (some p.1) ≤ _
        rw [pk_tok h3, ← h2, e1]
        exact Nat.le_refl _
    · obtain ⟨h1, h2, h3⟩ := h
      rw [if_neg (by rw [h1]; decide)]
      refine Wp.bind_ok (a := ()) rfl (Wp.bind_ok rfl (Wp.pure ⟨⟨⟨hw.path, hw.name⟩, ?_, ?_⟩, ⟨rfl, rfl, rfl, rfl, rfl, rfl⟩, rfl, rfl, ?_⟩))
      · rintro _ ⟨⟩; exact ht.trans h0
      · intro _ hr
        have hr : s.src.rest = [] := hr
        rw [← h3, hr] at hh
        cases hh
      · show s.src.rest.length + pk (some p.1) ≤ _
        rw [h2, h3]
        exact Nat.le_refl _
    · obtain ⟨h1, h2, h3⟩ := h
      rw [if_neg (by rw [h1]; decide)]
      refine Wp.bind_ok (a := ()) rfl (Wp.bind_ok rfl (Wp.pure ⟨⟨⟨hw.path, hw.name⟩, ?_, ?_⟩, ⟨rfl, rfl, rfl, rfl, rfl, rfl⟩, rfl, rfl, ?_⟩))
      · rintro _ ⟨⟩; exact ht.trans h0
      · intro h; exact absurd (Option.some.inj h) h2
      · show s.src.rest.length + pk (some p.1) ≤ _
        rw [pk_tok h2]
        exact h3
  refine Wp.ite (fun _ => ?_) fun _ => Wp.ite (fun _ => Up.syn hw hp) fun _ => key
  cases comma with
  | none => exact key
  | some x =>
    obtain ⟨l, col, bp⟩ := x
    refine Wp.ite (fun _ => ?_) fun _ => key
    exact Wp.bind_ok rfl (Up.syn ⟨hw.path, hw.name⟩ hp)

theorem peekToken_up (hw : WF s) (hp : s.peeked = none) : Up peekToken s (Pk s) := by
  have hpot : ∀ {s' : St}, s'.peeked = none → pot s' = s'.src.rest.length := by
    intro s' h
    unfold pot
    rw [h]
    rfl
  unfold peekToken
  refine Wp.bind' (Low.up skipWhitespace_low hw hp) ?_
  rintro o s1 ⟨hf, hl, hh⟩
  have hp1 := hf.peeked.trans hp
  have hw1 := hw.fr hf
  cases o with
  | none => exact Wp.pure ⟨hw1.w hp1, hf.fp, hp1, by rw [hpot hp1, hpot hp]; exact hl⟩
  | some b =>
    refine Wp.get ?_
    dsimp only
    refine Wp.ite (fun _ => Wp.ite (fun _ => Up.syn hw1 hp1) fun _ => ?_) fun _ => ?_
    · obtain ⟨t, h1, h2⟩ := skip_run hh
      refine Wp.bind_ok h2 (Wp.bind_ok rfl ?_)
      dsimp only
      generalize hs2 : ({ setRest s1 t with column := _, bytePos := _ } : St) = s2
      have hf2 : Fr s1 s2 := by subst hs2; exact ⟨rfl, rfl, rfl, rfl, rfl, rfl, rfl⟩
      have hl2 : s2.src.rest.length ≤ s1.src.rest.length := by
        subst hs2; show t.length ≤ _; rw [h1]; exact Nat.le_succ _
      refine Wp.bind' (Low.up skipWhitespaceNoEof_low (hw1.fr hf2) (hf2.peeked.trans hp1)) ?_
      rintro b3 s3 ⟨hf3, hl3, hh3⟩
      have hf13 := hf2.trans hf3
      refine Wp.bind' (classify_up (hw1.fr hf13) (hf13.peeked.trans hp1)) ?_
      rintro p s4 ⟨hf4, ht⟩
      have hf14 := hf13.trans hf4
      refine (finishPeek_up (hw1.fr hf14) (hf14.peeked.trans hp1) hh3 hf4.emn.symm ht).post ?_
      rintro o s5 ⟨h1, h2, h3, _, h4⟩
      refine ⟨h1, (hf.trans hf14).fp.trans h2, h3, ?_⟩
      rw [hpot hp]
      omega
    · refine Wp.bind' (classify_up hw1 hp1) ?_
      rintro p s4 ⟨hf4, ht⟩
      refine (finishPeek_up (hw1.fr hf4) (hf4.peeked.trans hp1) hh hf4.emn.symm ht).post ?_
      rintro o s5 ⟨h1, h2, h3, _, h4⟩
      refine ⟨h1, (hf.trans hf4).fp.trans h2, h3, ?_⟩
      rw [hpot hp]
      omega

theorem peekInternalOptional_up (hw : W s) : Up peekInternalOptional s (Pk s) := by
  unfold peekInternalOptional
  refine Wp.get ?_
  refine Wp.ite (fun _ => Up.usage) fun _ => Wp.ite (fun _ => Wp.pure ⟨hw, .refl _, rfl, Nat.le_refl _⟩) fun h => Wp.ite (fun _ => Up.usage) fun _ => ?_
  have hp : s.peeked = none := by simpa using h
  refine Wp.ite (fun _ => ?_) fun _ => peekToken_up hw.toWF hp
  refine Wp.bind' (afterName_up hw.toWF hp) ?_
  rintro _ s1 ⟨hf, hl⟩
  refine (peekToken_up (hw.toWF.fr hf) (hf.peeked.trans hp)).post ?_
  rintro o s2 ⟨h1, h2, h3, h4⟩
  refine ⟨h1, hf.fp.trans h2, h3, Nat.le_trans h4 ?_⟩
  unfold pot
  rw [hf.peeked]
  omega

/-- the result of `peekInternal` -/
abbrev Pk' (s : St) (p : Peeked) (s' : St) : Prop := Pk s (some p) s'

theorem peekInternal_up (hw : W s) : Up peekInternal s (Pk' s) := by
  unfold peekInternal
  refine Wp.bind' (peekInternalOptional_up hw) ?_
  rintro o s1 h
  cases o with
  | some p => exact Wp.pure h
  | none => exact Wp.get (Wp.ite (fun _ => Up.structure h.1) fun _ => Up.syn h.1.toWF h.2.2.1)

theorem mapPeeked_up {p : Peeked} (hw : W s) (hp : s.peeked = some p) (he : s.expectsMemberName = false) : Up (mapPeeked p) s (fun _ s' => s' = s) := by
  have := hw.tok p hp
  rw [he] at this
  cases p <;> first | exact Wp.pure rfl | exact Up.structure hw | (cases this)

theorem peek_up (hw : W s) : Up peek s (fun _ s' => W s' ∧ Fp s s' ∧ pot s' ≤ pot s) := by
  unfold peek
  refine Wp.get (Wp.ite (fun _ => Up.usage) fun he => ?_)
  refine Wp.bind' (peekInternal_up hw) ?_
  rintro p s1 ⟨h1, h2, h3, h4⟩
  refine (mapPeeked_up h1 h3 (by rw [h2.emn]; simpa using he)).post ?_
  rintro _ _ rfl
  exact ⟨h1, h2, h4⟩

theorem consumePeeked_run {p : Peeked} (hp : s.peeked = some p) : (consumePeeked : R AbsSrc _).run s =
    .ok () { s with peeked := none, column := s.column + peekedLength p, bytePos := s.bytePos + peekedLength p } := by
  unfold consumePeeked
  rw [run_get, hp]
  rfl

theorem start_up {t : ValueType} {d : Bool} (hw : W s) : Up (startExpectedValueType t d) s (fun p s' =>
    WF s' ∧ Fp s s' ∧ s'.peeked = none ∧ s'.expectsMemberName = false ∧ (∃ s1, (mapPeeked p : R AbsSrc _).run s1 = .ok t s1) ∧
    (if p = .numberStart then s'.src.rest.length ≤ pot s ∧ s'.src.rest ≠ [] else s'.src.rest.length + 1 ≤ pot s)) := by
  unfold startExpectedValueType
  refine Wp.get (Wp.ite (fun _ => Up.usage) fun he => ?_)
  have he : s.expectsMemberName = false := by simpa using he
  refine Wp.bind' (peekInternal_up hw) ?_
  rintro p s1 ⟨h1, h2, h3, h4⟩
  have hm := mapPeeked_up h1 h3 (h2.emn.trans he)
  cases hr : (mapPeeked p : R AbsSrc _).run s1 with
  | err e s2 => exact Wp.of_err (M.bind_err hr) (hm.err hr)
  | ok t2 s2 =>
    have := hm.ok hr
    subst this
    refine Wp.bind_ok hr (Wp.get ?_)
    refine Wp.ite (fun ht => ?_) fun _ => Wp.fail h1
    have ht : t2 = t := by simpa using ht
    subst ht
    have hfin : Up (do consumePeeked; pure p : R AbsSrc Peeked) s2 (fun p s' =>
        WF s' ∧ Fp s s' ∧ s'.peeked = none ∧ s'.expectsMemberName = false ∧ (∃ s1, (mapPeeked p : R AbsSrc _).run s1 = .ok t2 s1) ∧
        (if p = .numberStart then s'.src.rest.length ≤ pot s ∧ s'.src.rest ≠ [] else s'.src.rest.length + 1 ≤ pot s)) := by
      refine Wp.bind_ok (consumePeeked_run h3) (Wp.pure ⟨⟨h1.path, h1.name⟩, h2.trans ⟨rfl, rfl, rfl, rfl, rfl, rfl⟩, rfl, h2.emn.trans he, ⟨_, hr⟩, ?_⟩)
      unfold pot at h4
      rw [h3] at h4
      split
      · rename_i hn
        subst hn
        exact ⟨h4, h1.num h3⟩
      · rename_i hn
        rw [pk_tok hn] at h4
        exact h4
    cases d with
    | false => exact hfin
    | true =>
      rw [if_pos rfl]
      cases depthExceeded s2 with
      | none => exact hfin
      | some m => exact Wp.fail h1

/-- the result of a value -/
def Val (s : St) (n : Nat) (s' : St) : Prop := W s' ∧ s'.stack = s.stack ∧ s'.peeked = none ∧ s'.src.rest.length + 1 ≤ n

theorem Val.pot {n : Nat} {s' : St} (h : Val s n s') : After.pot s' + 1 ≤ n := by
  unfold After.pot
  rw [h.2.2.1]
  exact h.2.2.2

theorem onValueEnd_up (hw : WF s) (hp : s.peeked = none) (he : s.expectsMemberName = false) :
    Up onValueEnd s (fun _ s' => W s' ∧ s'.stack = s.stack ∧ s'.peeked = none ∧ s'.src = s.src) := by
  unfold onValueEnd
  refine Wp.get ?_
  have fin : ∀ {pa : Option (List PathPiece)}, (∀ p, pa = some p → PathFits p s.stack) →
      W { s with path := pa, expectsMemberName := if isInObject s then true else s.expectsMemberName, isEmpty := false } ∧ s.stack = s.stack ∧ s.peeked = none ∧ s.src = s.src := by
    intro pa hpa
    refine ⟨WF.w ⟨hpa, fun h => ?_⟩ hp, rfl, hp, rfl⟩
    show isInObject s = true
    dsimp only at h
    rw [he] at h
    simpa using h
  cases hpa : s.path with
  | none =>
    cases ha : isInArray s <;> exact Wp.bind_ok (a := none) (s' := s) rfl (Wp.set (fin (pa := none) (fun p h => by cases h)))
  | some ps =>
    have hfit := hw.path ps hpa
    cases ha : isInArray s with
    | false => exact Wp.bind_ok (a := some ps) (s' := s) rfl (Wp.set (fin (pa := some ps) (fun p h => by cases h; exact hfit)))
    | true =>
      unfold isInArray at ha
      cases hst : s.stack with
      | nil => rw [hst] at ha; cases ha
      | cons k st =>
        rw [hst] at ha hfit
        cases k with
        | object => cases ha
        | array =>
          cases ps with
          | nil => exact hfit.elim
          | cons q ps =>
            cases q with
            | objectMember n => exact hfit.elim
            | arrayItem i =>
              refine Wp.bind_ok (a := some (.arrayItem (i + 1) :: ps)) (s' := s) rfl (Wp.set ?_)
              rw [← hst]
              exact fin (fun p h => by cases h; rw [hst]; exact hfit)

theorem onValueEnd_val {s0 : St} {n : Nat} (hw : WF s) (hp : s.peeked = none) (he : s.expectsMemberName = false) (hf : s.stack = s0.stack) (hn : s.src.rest.length + 1 ≤ n) :
    Up onValueEnd s (fun _ s' => Val s0 n s' ∧ s'.src = s.src) := by
  refine (onValueEnd_up hw hp he).post ?_
  rintro _ s' ⟨h1, h2, h3, h4⟩
  exact ⟨⟨h1, h2.trans hf, h3, by rw [h4]; exact hn⟩, h4⟩

theorem begin_up {t : ValueType} {k : StackValue} {piece : PathPiece} {b : Bool} (hw : W s) (ht : t ≠ .number)
    (hfit : ∀ ps st, PathFits ps st → PathFits (piece :: ps) (k :: st)) (hb : b = true → k = .object) :
    Up (do onContainerStart t k; M.modify fun s => { s with path := s.path.map (piece :: ·), expectsMemberName := b } : R AbsSrc Unit) s
      (fun _ s' => W s' ∧ s'.stack = k :: s.stack ∧ s'.peeked = none ∧ pot s' + 1 ≤ pot s) := by
  unfold onContainerStart
  refine Wp.bind (Wp.bind' (start_up hw) ?_)
  rintro p s1 ⟨h1, h2, h3, h4, ⟨s2, h5⟩, h6⟩
  have hn : p ≠ .numberStart := by
    rintro rfl
    cases h5
    exact ht rfl
  rw [if_neg hn] at h6
  refine Wp.modify (Wp.modify ⟨WF.w ⟨?_, ?_⟩ h3, by rw [← h2.stack], h3, ?_⟩)
  · intro q hq
    dsimp only at hq
    cases hpa : s1.path with
    | none => rw [hpa] at hq; cases hq
    | some ps =>
      rw [hpa] at hq
      cases hq
      exact hfit _ _ (h1.path _ hpa)
  · intro h
    rw [hb h]
    rfl
  · unfold pot
    dsimp only
    rw [h3]
    exact h6

theorem beginArray_up (hw : W s) : Up beginArray s (fun _ s' => W s' ∧ s'.stack = .array :: s.stack ∧ s'.peeked = none ∧ pot s' + 1 ≤ pot s) :=
  begin_up hw nofun (fun _ _ h => h) nofun

theorem beginObject_up (hw : W s) : Up beginObject s (fun _ s' => W s' ∧ s'.stack = .object :: s.stack ∧ s'.peeked = none ∧ pot s' + 1 ≤ pot s) :=
  begin_up hw nofun (fun _ _ h => h) fun _ => rfl

theorem fits_tail {ps : List PathPiece} {st : List StackValue} (h : PathFits ps st) : PathFits ps.tail st.tail := by
  cases ps with
  | nil => cases st with
    | nil => trivial
    | cons => exact h.elim
  | cons p ps => cases st with
    | nil => cases p <;> exact h.elim
    | cons k st => cases p <;> cases k <;> first | exact h | exact h.elim

theorem onContainerEnd_up {s0 : St} {n : Nat} (hw : ∀ p, s.path = some p → PathFits p s.stack) (hp : s.peeked = none) (he : s.expectsMemberName = false) (hf : s.stack = s0.stack) (hn : s.src.rest.length + 1 ≤ n) :
    Up onContainerEnd s (fun _ s' => W s' ∧ s'.stack = s0.stack.tail ∧ s'.peeked = none ∧ s'.src.rest.length + 1 ≤ n) := by
  unfold onContainerEnd
  refine Wp.bind_ok rfl ((onValueEnd_up (s := { s with stack := s.stack.tail, path := s.path.map List.tail }) ⟨?_, ?_⟩ hp he).post ?_)
  · intro q hq
    dsimp only at hq
    cases hpa : s.path with
    | none => rw [hpa] at hq; cases hq
    | some ps =>
      rw [hpa] at hq
      cases hq
      exact fits_tail (hw _ hpa)
  · intro h
    dsimp only at h
    rw [he] at h
    cases h
  · rintro _ s' ⟨h1, h2, h3, h4⟩
    exact ⟨h1, by rw [h2]; exact congrArg List.tail hf, h3, by rw [h4]; exact hn⟩

/-- the result of the end of an array or object -/
def End (s : St) (s' : St) : Prop := W s' ∧ s'.stack = s.stack.tail ∧ s'.peeked = none ∧ s'.src.rest.length + 1 ≤ pot s

theorem End.pot {s' : St} (h : End s s') : After.pot s' + 1 ≤ After.pot s := by
  unfold After.pot
  rw [h.2.2.1]
  exact h.2.2.2

theorem endArray_up (hw : W s) : Up endArray s (fun _ s' => End s s') := by
  unfold endArray
  refine Wp.get (Wp.ite (fun _ => Up.usage) fun ha => ?_)
  have ha : isInArray s = true := by simpa using ha
  refine Wp.bind' (peekInternal_up hw) ?_
  rintro p s1 ⟨h1, h2, h3, h4⟩
  refine Wp.ite (fun _ => Up.structure h1) fun hp => ?_
  have hp : p = .arrayEnd := by simpa using hp
  subst hp
  refine Wp.bind_ok (consumePeeked_run h3) ?_
  have he : s1.expectsMemberName = false := by
    have := h1.tok _ h3
    exact this.symm
  unfold pot at h4
  rw [h3] at h4
  exact onContainerEnd_up (s0 := s) h1.path rfl he h2.stack h4

theorem endObject_up (hw : W s) : Up endObject s (fun _ s' => End s s') := by
  unfold endObject
  refine Wp.get (Wp.ite (fun _ => Up.usage) fun ha => Wp.ite (fun _ => Up.usage) fun ha => ?_)
  refine Wp.bind' (peekInternal_up hw) ?_
  rintro p s1 ⟨h1, h2, h3, h4⟩
  refine Wp.ite (fun _ => Up.structure h1) fun hp => ?_
  have hp : p = .objectEnd := by simpa using hp
  subst hp
  refine Wp.bind_ok (consumePeeked_run h3) (Wp.bind_ok rfl ?_)
  unfold pot at h4
  rw [h3] at h4
  exact onContainerEnd_up (s0 := s) h1.path rfl rfl h2.stack h4

theorem hasNext_up (hw : W s) : Up hasNext s (fun b s' => W s' ∧ Fp s s' ∧ pot s' ≤ pot s ∧ (b = true → s'.peeked.isSome) ∧ (b = true → s.expectsMemberName = true → s'.peeked = some .nameStart)) := by
  unfold hasNext
  refine Wp.get (Wp.ite (fun _ => Up.usage) fun _ => ?_)
  have key : ∀ {m : R AbsSrc (Option Peeked)}, Up m s (Pk s) → Up (m >>= fun p => match p with
      | none => pure false
      | some p => do
        let s ← M.get
        if !(!s.expectsMemberName || p == .nameStart || p == .objectEnd) then internalPanic .debugAssert
        else pure (p != .arrayEnd && p != .objectEnd)) s (fun b s' => W s' ∧ Fp s s' ∧ pot s' ≤ pot s ∧ (b = true → s'.peeked.isSome) ∧ (b = true → s.expectsMemberName = true → s'.peeked = some .nameStart)) := by
    intro m hm
    refine Wp.bind' hm ?_
    rintro o s1 ⟨h1, h2, h3, h4⟩
    cases o with
    | none => exact Wp.pure ⟨h1, h2, h4, nofun, nofun⟩
    | some p =>
      refine Wp.get ?_
      have := h1.tok p h3
      refine Wp.ite (fun h => ?_) fun _ => Wp.pure ⟨h1, h2, h4, fun _ => by rw [h3]; rfl, fun hb he => ?_⟩
      · rw [← this] at h
        cases p <;> cases h
      · rw [h2.emn, he] at this
        cases p <;> first | exact h3 | (cases hb; done) | (cases this; done)
  split
  · split
    · exact Wp.bind' (P := fun _ _ => False) Up.usage (fun _ _ h => h.elim)
    · split
      · exact Wp.bind' (P := fun _ _ => False) Up.usage (fun _ _ h => h.elim)
      · exact key (peekInternalOptional_up hw)
  · refine key (Wp.bind' (peekInternal_up hw) ?_)
    rintro p s1 h
    exact Wp.pure h

theorem beforeName_up (hw : W s) : Up beforeName s (fun _ s' => WF s' ∧ s'.peeked = none ∧ s'.expectsMemberName = false ∧ s'.stack = s.stack ∧ isInObject s' = true ∧ s'.src.rest.length + 1 ≤ pot s) := by
  unfold beforeName
  refine Wp.get (Wp.ite (fun _ => Up.usage) fun he => Wp.ite (fun _ => Up.usage) fun _ => ?_)
  have he : s.expectsMemberName = true := by simpa using he
  refine Wp.bind' (hasNext_up hw) ?_
  rintro b s1 ⟨h1, h2, h3, _, h4⟩
  refine Wp.ite (fun hb => ?_) fun _ => Up.structure h1
  have hpk := h4 hb he
  refine Wp.bind_ok rfl (Wp.of_ok (consumePeeked_run hpk) ⟨⟨h1.path, fun h => by cases h⟩, rfl, rfl, h2.stack, h1.name (h2.emn.trans he), ?_⟩)
  unfold pot at h3
  rw [hpk] at h3
  exact h3

theorem setPathName_up {n : Text} (hw : WF s) (hp : s.peeked = none) (ho : isInObject s = true) :
    Up (setPathName n) s (fun _ s' => W s' ∧ s'.stack = s.stack ∧ s'.peeked = none ∧ s'.src = s.src) := by
  unfold setPathName
  refine Wp.get ?_
  cases hpa : s.path with
  | none => exact Wp.pure ⟨hw.w hp, rfl, hp, rfl⟩
  | some ps =>
    have hfit := hw.path ps hpa
    unfold isInObject at ho
    cases hst : s.stack with
    | nil => rw [hst] at ho; cases ho
    | cons k st =>
      rw [hst] at ho hfit
      cases k with
      | array => cases ho
      | object =>
        cases ps with
        | nil => exact hfit.elim
        | cons q ps =>
          cases q with
          | arrayItem n => exact hfit.elim
          | objectMember i =>
            rw [← hst]
            refine Wp.set ⟨WF.w ⟨?_, hw.name⟩ hp, rfl, hp, rfl⟩
            intro p h
            cases h
            show PathFits _ s.stack
            rw [hst]
            exact hfit

/-- the result of a member name -/
abbrev Nm (s s' : St) : Prop := Val s (pot s) s'

theorem nextNameOwned_up (hw : W s) : Up nextNameOwned s (fun _ s' => Nm s s') := by
  unfold nextNameOwned
  refine Wp.bind' (beforeName_up hw) ?_
  rintro _ s1 ⟨h1, h2, h3, h4, h5, h6⟩
  refine Wp.bind' (Low.up (readString_low false) h1 h2) ?_
  rintro _ s2 ⟨hf, hl, t, ht⟩
  refine Wp.bind_ok (getString_run ht) ?_
  refine Wp.bind' (setPathName_up (s := setAcc s2 []) ⟨(h1.fr hf).path, (h1.fr hf).name⟩ (hf.peeked.trans h2) ?_) ?_
  · unfold isInObject at h5 ⊢
    rw [← hf.stack] at h5
    exact h5
  · rintro _ s3 ⟨e1, e2, e3, e4⟩
    refine Wp.pure ⟨e1, e2.trans (hf.stack.trans h4), e3, ?_⟩
    rw [e4]
    show s2.src.rest.length + 1 ≤ _
    omega

theorem nextName_up (hw : W s) : Up nextName s (fun _ s' => Nm s s') := by
  unfold nextName
  refine Wp.bind' (beforeName_up hw) ?_
  rintro _ s1 ⟨h1, h2, h3, h4, h5, h6⟩
  refine Wp.bind' (Low.up (readString_low true) h1 h2) ?_
  rintro _ s2 ⟨hf, hl, t, ht⟩
  refine Wp.get ?_
  have fin : ∀ s3 : St, W s3 → s3.stack = s2.stack → s3.peeked = none → s3.src = s2.src → Up (liftS ByteSource.getStr) s3 (fun _ s' => Nm s s') := by
    intro s3 e1 e2 e3 e4
    refine Wp.of_ok (getStr_run (cs := t) (by rw [e4]; exact ht)) ⟨WF.w ⟨e1.path, e1.name⟩ e3, e2.trans (hf.stack.trans h4), e3, ?_⟩
    show s3.src.rest.length + 1 ≤ _
    rw [e4]
    omega
  refine Wp.ite_bind (fun _ => ?_) fun _ => ?_
  · refine Wp.bind (Wp.bind_ok (getStrPeek_run ht) ?_)
    refine (setPathName_up (s := s2) (h1.fr hf) (hf.peeked.trans h2) ?_).post ?_
    · unfold isInObject at h5 ⊢
      rw [← hf.stack] at h5
      exact h5
    · rintro _ s3 ⟨e1, e2, e3, e4⟩
      exact fin s3 e1 e2 e3 e4
  · exact Wp.bind_ok (a := ()) rfl (fin s2 ((h1.fr hf).w (hf.peeked.trans h2)) rfl (hf.peeked.trans h2) rfl)

theorem skipName_up (hw : W s) : Up skipName s (fun _ s' => Nm s s') := by
  unfold skipName
  refine Wp.bind' (beforeName_up hw) ?_
  rintro _ s1 ⟨h1, h2, h3, h4, h5, h6⟩
  refine Wp.get (Wp.ite (fun _ => ?_) fun _ => ?_)
  · refine Wp.bind' (Low.up (readString_low false) h1 h2) ?_
    rintro _ s2 ⟨hf, hl, t, ht⟩
    refine Wp.bind_ok (getString_run ht) ?_
    refine (setPathName_up (s := setAcc s2 []) ⟨(h1.fr hf).path, (h1.fr hf).name⟩ (hf.peeked.trans h2) ?_).post ?_
    · unfold isInObject at h5 ⊢
      rw [← hf.stack] at h5
      exact h5
    · rintro _ s3 ⟨e1, e2, e3, e4⟩
      refine ⟨e1, e2.trans (hf.stack.trans h4), e3, ?_⟩
      rw [e4]
      show s2.src.rest.length + 1 ≤ _
      omega
  · refine (Low.up skipAll_low h1 h2).post ?_
    rintro _ s2 ⟨hf, hl⟩
    exact ⟨(h1.fr hf).w (hf.peeked.trans h2), hf.stack.trans h4, hf.peeked.trans h2, by omega⟩

/-! ## Values -/

/-- the result of a value -/
abbrev Vl (s s' : St) : Prop := Val s (pot s) s'

theorem nextBool_up (hw : W s) : Up nextBool s (fun _ s' => Vl s s') := by
  unfold nextBool
  refine Wp.bind' (start_up hw) ?_
  rintro p s1 ⟨h1, h2, h3, h4, ⟨s2, h5⟩, h6⟩
  have fin : ∀ b : Bool, s1.src.rest.length + 1 ≤ pot s → Up (do onValueEnd; pure b : R AbsSrc Bool) s1 (fun _ s' => Vl s s') := by
    intro b h6
    refine Wp.bind' (onValueEnd_val h1 h3 h4 h2.stack h6) ?_
    rintro _ s' h
    exact Wp.pure h.1
  cases p <;> first | (cases h5; done) | skip
  · exact Wp.bind_ok (a := true) rfl (fin _ h6)
  · exact Wp.bind_ok (a := false) rfl (fin _ h6)

theorem nextNull_up (hw : W s) : Up nextNull s (fun _ s' => Vl s s') := by
  unfold nextNull
  refine Wp.bind' (start_up hw) ?_
  rintro p s1 ⟨h1, h2, h3, h4, ⟨s2, h5⟩, h6⟩
  rw [if_neg (by rintro rfl; cases h5)] at h6
  exact (onValueEnd_val h1 h3 h4 h2.stack h6).post fun _ _ h => h.1

theorem nextString_up (hw : W s) : Up nextString s (fun _ s' => Vl s s') := by
  unfold nextString
  refine Wp.bind' (start_up hw) ?_
  rintro p s1 ⟨h1, h2, h3, h4, ⟨s2, h5⟩, h6⟩
  rw [if_neg (by rintro rfl; cases h5)] at h6
  refine Wp.bind' (Low.up (readString_low false) h1 h3) ?_
  rintro _ s2 ⟨hf, hl, t, ht⟩
  refine Wp.bind_ok (getString_run ht) (Wp.bind' (onValueEnd_val (s := setAcc s2 []) ⟨(h1.fr hf).path, (h1.fr hf).name⟩ (hf.peeked.trans h3) (hf.emn.trans h4)
    (hf.stack.trans h2.stack) (show s2.src.rest.length + 1 ≤ pot s by omega)) ?_)
  rintro _ s' h
  exact Wp.pure h.1

theorem nextStr_up (hw : W s) : Up nextStr s (fun _ s' => Vl s s') := by
  unfold nextStr
  refine Wp.bind' (start_up hw) ?_
  rintro p s1 ⟨h1, h2, h3, h4, ⟨s2, h5⟩, h6⟩
  rw [if_neg (by rintro rfl; cases h5)] at h6
  refine Wp.bind' (Low.up (readString_low true) h1 h3) ?_
  rintro _ s2 ⟨hf, hl, t, ht⟩
  refine Wp.bind' (onValueEnd_val (h1.fr hf) (hf.peeked.trans h3) (hf.emn.trans h4)
    (hf.stack.trans h2.stack) (show s2.src.rest.length + 1 ≤ pot s by omega)) ?_
  rintro _ s3 ⟨e, e'⟩
  refine Wp.of_ok (getStr_run (cs := t) (by rw [e']; exact ht)) ⟨WF.w ⟨e.1.path, e.1.name⟩ e.2.2.1, e.2.1, e.2.2.1, e.2.2.2⟩

theorem skipString_up {β : Type} {f : R AbsSrc β} {Q : β → St → Prop} (hw : W s) (hQ : ∀ s', Vl s s' → Up f s' Q) :
    Up (do let _ ← startExpectedValueType .string false; skipAllStringBytes; onValueEnd; f : R AbsSrc β) s Q := by
  refine Wp.bind' (start_up hw) ?_
  rintro p s1 ⟨h1, h2, h3, h4, ⟨s2, h5⟩, h6⟩
  rw [if_neg (by rintro rfl; cases h5)] at h6
  refine Wp.bind' (Low.up skipAll_low h1 h3) ?_
  rintro _ s2 ⟨hf, hl⟩
  exact Wp.bind' (onValueEnd_val (h1.fr hf) (hf.peeked.trans h3) (hf.emn.trans h4)
    (hf.stack.trans h2.stack) (show s2.src.rest.length + 1 ≤ pot s by omega)) fun _ _ h => hQ _ h.1

theorem finishNumber_up {s0 : St} {n k : Nat} (hw : WF s) (hp : s.peeked = none) (he : s.expectsMemberName = false) (hf : s.stack = s0.stack) (hn : s.src.rest.length + 1 ≤ n) :
    Up (finishNumber k) s (fun _ s' => Val s0 n s' ∧ s'.src = s.src) := by
  unfold finishNumber
  refine Wp.bind_ok (a := ()) rfl ?_
  refine Wp.bind' (Low.up verifyValueSeparator_low ⟨hw.path, hw.name⟩ hp) ?_
  rintro _ s1 ⟨hf1, h1⟩
  have h1 : s1.src = s.src := h1
  rw [← h1]
  exact onValueEnd_val (WF.fr (s := { s with column := s.column + k, bytePos := s.bytePos + k }) ⟨hw.path, hw.name⟩ hf1) (hf1.peeked.trans hp) (hf1.emn.trans he) (hf1.stack.trans hf) (by rw [h1]; exact hn)

theorem number_start {p : Peeked} {s1 : St} (h : (mapPeeked p : R AbsSrc _).run s1 = .ok .number s1) : p = .numberStart := by
  cases p <;> first | rfl | (cases h)

theorem readNumberBytes_up {b : Bool} (hw : W s) : Up (readNumberBytes b) s (fun _ s' => Vl s s' ∧ ∃ t, s'.src.acc = enc t) := by
  unfold readNumberBytes
  refine Wp.bind' (start_up hw) ?_
  rintro p s1 ⟨h1, h2, h3, h4, ⟨s2, h5⟩, h6⟩
  rw [if_pos (number_start h5)] at h6
  refine Wp.bind' (Low.up (collectNumber_low h6.2) h1 h3) ?_
  rintro ⟨ed, n⟩ s2 ⟨hf, hl, t, ht⟩
  refine Wp.get (Wp.ite (fun _ => ?_) fun _ => ?_)
  · refine Wp.bind_ok (a := ()) (s' := s2) rfl (Wp.bind_ok (getString_run ht) (Wp.get (Wp.fail ?_)))
    exact WF.w ⟨(h1.fr hf).path, (h1.fr hf).name⟩ (hf.peeked.trans h3)
  · refine Wp.bind_ok (a := ()) (s' := s2) rfl ((finishNumber_up (s0 := s) (n := pot s) (h1.fr hf) (hf.peeked.trans h3) (hf.emn.trans h4) (hf.stack.trans h2.stack)
      (by have := h6.1; omega)).post ?_)
    rintro _ s3 ⟨h, h'⟩
    exact ⟨h, t, by rw [h']; exact ht⟩

theorem skipNumber_up (hw : W s) : Up skipNumber s (fun _ s' => Vl s s') := by
  unfold skipNumber
  refine Wp.bind' (start_up hw) ?_
  rintro p s1 ⟨h1, h2, h3, h4, ⟨s2, h5⟩, h6⟩
  rw [if_pos (number_start h5)] at h6
  refine Wp.bind' (Low.up (skipNumberBytes_low h6.2) h1 h3) ?_
  rintro ⟨ed, n⟩ s2 ⟨hf, hl⟩
  exact (finishNumber_up (s0 := s) (n := pot s) (h1.fr hf) (hf.peeked.trans h3) (hf.emn.trans h4) (hf.stack.trans h2.stack)
      (by have := h6.1; omega)).post fun _ _ h => h.1

theorem nextNumberAsString_up (hw : W s) : Up nextNumberAsString s (fun _ s' => Vl s s') := by
  unfold nextNumberAsString
  refine Wp.bind' (readNumberBytes_up hw) ?_
  rintro _ s1 ⟨e, t, ht⟩
  exact Wp.of_ok (getString_run ht) ⟨WF.w ⟨e.1.path, e.1.name⟩ e.2.2.1, e.2.1, e.2.2.1, e.2.2.2⟩

theorem nextNumberAsStr_up (hw : W s) : Up nextNumberAsStr s (fun _ s' => Vl s s') := by
  unfold nextNumberAsStr
  refine Wp.bind' (readNumberBytes_up hw) ?_
  rintro _ s1 ⟨e, t, ht⟩
  exact Wp.of_ok (getStr_run ht) ⟨WF.w ⟨e.1.path, e.1.name⟩ e.2.2.1, e.2.1, e.2.2.1, e.2.2.2⟩

/-! ## Skipping -/

/-- a value was skipped, or the start of an array or object -/
def Part (s : St) (d : Nat) (s' : St) : Prop := W s' ∧ pot s' + 1 ≤ pot s ∧ ∃ pre, pre.length = d ∧ s'.stack = pre ++ s.stack

theorem skipValueStart_up (hw : W s) : Up skipValueStart s (fun d s' => Part s d s') := by
  unfold skipValueStart
  refine Wp.bind' (peek_up hw) ?_
  rintro t s1 ⟨h1, h2, h3⟩
  have val : ∀ {m : R AbsSrc Unit}, Up m s1 (fun _ s' => Vl s1 s') → Up (do m; pure 0 : R AbsSrc Nat) s1 (fun d s' => Part s d s') := by
    intro m hm
    refine Wp.bind' hm ?_
    rintro _ s2 h
    exact Wp.pure ⟨h.1, by have := h.pot; omega, [], rfl, h.2.1.trans h2.stack⟩
  cases t with
  | array =>
    refine Wp.bind' (beginArray_up h1) ?_
    rintro _ s2 ⟨e1, e2, e3, e4⟩
    exact Wp.pure ⟨e1, by omega, [.array], rfl, by rw [e2, h2.stack]; rfl⟩
  | object =>
    refine Wp.bind' (beginObject_up h1) ?_
    rintro _ s2 ⟨e1, e2, e3, e4⟩
    exact Wp.pure ⟨e1, by omega, [.object], rfl, by rw [e2, h2.stack]; rfl⟩
  | string =>
    refine skipString_up h1 fun s2 h => ?_
    exact Wp.pure ⟨h.1, by have := h.pot; omega, [], rfl, h.2.1.trans h2.stack⟩
  | number => exact val (skipNumber_up h1)
  | boolean =>
    refine Wp.bind' (nextBool_up h1) ?_
    rintro _ s2 h
    exact Wp.pure ⟨h.1, by have := h.pot; omega, [], rfl, h.2.1.trans h2.stack⟩
  | null => exact val (nextNull_up h1)

theorem endContainer_up (hw : W s) : Up endContainer s (fun _ s' => End s s') := by
  unfold endContainer
  exact Wp.get (Wp.ite (fun _ => endArray_up hw) fun _ => endObject_up hw)

theorem skipNameIfExpected_up (hw : W s) : Up skipNameIfExpected s (fun _ s' => W s' ∧ s'.stack = s.stack ∧ pot s' ≤ pot s) := by
  unfold skipNameIfExpected
  refine Wp.get (Wp.ite (fun _ => ?_) fun _ => Wp.pure ⟨hw, rfl, Nat.le_refl _⟩)
  exact (skipName_up hw).post fun _ _ h => ⟨h.1, h.2.1, by have := h.pot; omega⟩

theorem atContainerEnd_up {d : Nat} (hw : W s) : Up (atContainerEnd d) s (fun b s' => W s' ∧ s'.stack = s.stack ∧ pot s' ≤ pot s ∧ (b = true → 0 < d)) := by
  unfold atContainerEnd
  refine Wp.ite (fun h => ?_) fun _ => Wp.pure ⟨hw, rfl, Nat.le_refl _, nofun⟩
  refine Wp.bind' (hasNext_up hw) ?_
  rintro b s1 ⟨h1, h2, h3, _⟩
  exact Wp.pure ⟨h1, h2.stack, h3, fun _ => h⟩

theorem skipValueLoop_up {base : List StackValue} {s0 : St} : ∀ {n d : Nat} {s : St}, W s → pot s < n → pot s ≤ pot s0 → (∃ pre, pre.length = d ∧ s.stack = pre ++ base) →
    Up (skipValueLoop n d) s (fun _ s' => W s' ∧ s'.stack = base ∧ pot s' + 1 ≤ pot s0)
  | 0, d, s, hw, hn, h0, hb => absurd hn (Nat.not_lt_zero _)
  | n + 1, d, s, hw, hn, h0, hb => by
    unfold skipValueLoop
    refine Wp.bind' (atContainerEnd_up hw) ?_
    rintro b s1 ⟨h1, h2, h3, h4⟩
    obtain ⟨pre, hp1, hp2⟩ := hb
    have key : Up (if b = true then do endContainer; pure (d - 1) else do skipNameIfExpected; let d' ← skipValueStart; pure (d + d') : R AbsSrc Nat) s1
        (fun d' s' => W s' ∧ pot s' + 1 ≤ pot s ∧ ∃ pre, pre.length = d' ∧ s'.stack = pre ++ base) := by
      refine Wp.ite (fun hb => ?_) fun _ => ?_
      · refine Wp.bind' (endContainer_up h1) ?_
        rintro _ s2 h
        have hd := h4 hb
        refine Wp.pure ⟨h.1, by have := h.pot; omega, pre.tail, by rw [List.length_tail, hp1], ?_⟩
        rw [h.2.1, h2, hp2]
        cases pre with
        | nil => subst hp1; cases hd
        | cons => rfl
      · refine Wp.bind' (skipNameIfExpected_up h1) ?_
        rintro _ s2 ⟨e1, e2, e3⟩
        refine Wp.bind' (skipValueStart_up e1) ?_
        rintro d' s3 ⟨f1, f2, pre', f3, f4⟩
        refine Wp.pure ⟨f1, by omega, pre' ++ pre, by rw [List.length_append, f3, hp1, Nat.add_comm], ?_⟩
        rw [f4, e2, h2, hp2, List.append_assoc]
    refine Wp.bind' key ?_
    rintro d' s2 ⟨e1, e2, pre', e3, e4⟩
    refine Wp.ite (fun hd => Wp.pure ?_) fun _ => skipValueLoop_up e1 (by omega) (by omega) ⟨pre', e3, e4⟩
    have hd : d' = 0 := by simpa using hd
    subst hd
    rw [List.length_eq_zero_iff] at e3
    subst e3
    exact ⟨e1, e4, by omega⟩

theorem skipValue_up (hw : W s) : Up skipValue s (fun _ s' => W s' ∧ s'.stack = s.stack ∧ pot s' + 1 ≤ pot s) := by
  unfold skipValue
  exact Wp.get (Wp.ite (fun _ => Up.usage) fun _ => skipValueLoop_up hw (pot_lt_fuel s) (Nat.le_refl _) ⟨[], rfl, rfl⟩)

theorem skipItems_up : ∀ {n : Nat} {s : St}, W s → pot s < n → Up (skipItems n) s (fun _ s' => W s' ∧ s'.stack = s.stack ∧ pot s' ≤ pot s)
  | 0, s, hw, hn => absurd hn (Nat.not_lt_zero _)
  | n + 1, s, hw, hn => by
    unfold skipItems
    refine Wp.bind' (hasNext_up hw) ?_
    rintro b s1 ⟨h1, h2, h3, _⟩
    refine Wp.ite (fun _ => ?_) fun _ => Wp.pure ⟨h1, h2.stack, h3⟩
    refine Wp.bind' (skipValue_up h1) ?_
    rintro _ s2 ⟨e1, e2, e3⟩
    refine (skipItems_up e1 (by omega)).post ?_
    rintro _ s3 ⟨f1, f2, f3⟩
    exact ⟨f1, f2.trans (e2.trans h2.stack), by omega⟩

theorem skipMembers_up : ∀ {n : Nat} {s : St}, W s → pot s < n → Up (skipMembers n) s (fun _ s' => W s' ∧ s'.stack = s.stack ∧ pot s' ≤ pot s)
  | 0, s, hw, hn => absurd hn (Nat.not_lt_zero _)
  | n + 1, s, hw, hn => by
    unfold skipMembers
    refine Wp.bind' (hasNext_up hw) ?_
    rintro b s1 ⟨h1, h2, h3, _⟩
    refine Wp.ite (fun _ => ?_) fun _ => Wp.pure ⟨h1, h2.stack, h3⟩
    refine Wp.bind' (skipName_up h1) ?_
    rintro _ s2 h
    refine Wp.bind' (skipValue_up h.1) ?_
    rintro _ s3 ⟨e1, e2, e3⟩
    have := h.pot
    refine (skipMembers_up e1 (by omega)).post ?_
    rintro _ s4 ⟨f1, f2, f3⟩
    exact ⟨f1, f2.trans (e2.trans (h.2.1.trans h2.stack)), by omega⟩

theorem finishArray_up (hw : W s) : Up finishArray s (fun _ s' => W s' ∧ s'.stack = s.stack.tail) := by
  unfold finishArray
  refine Wp.get (Wp.bind' (skipItems_up hw (pot_lt_fuel s)) ?_)
  rintro _ s1 ⟨h1, h2, _⟩
  exact (endArray_up h1).post fun _ _ h => ⟨h.1, h.2.1.trans (by rw [h2])⟩

theorem finishObject_up (hw : W s) : Up finishObject s (fun _ s' => W s' ∧ s'.stack = s.stack.tail) := by
  unfold finishObject
  refine Wp.get (Wp.bind' (skipMembers_up hw (pot_lt_fuel s)) ?_)
  rintro _ s1 ⟨h1, h2, _⟩
  exact (endObject_up h1).post fun _ _ h => ⟨h.1, h.2.1.trans (by rw [h2])⟩

theorem skipToTopLevelLoop_up : ∀ {n : Nat} {s : St}, W s → s.stack.length ≤ n → Up (skipToTopLevelLoop n) s (fun _ s' => W s')
  | 0, s, hw, hn => by
    unfold skipToTopLevelLoop
    refine Wp.get (Wp.ite (fun _ => Wp.pure hw) fun h => ?_)
    have := List.length_eq_zero_iff.1 (Nat.le_zero.1 hn)
    rw [this] at h
    exact absurd rfl h
  | n + 1, s, hw, hn => by
    unfold skipToTopLevelLoop
    refine Wp.get ?_
    have next : ∀ {s' : St}, W s' → s'.stack = s.stack.tail → Up (skipToTopLevelLoop n) s' (fun _ s' => W s') := by
      intro s' h1 h2
      refine skipToTopLevelLoop_up h1 ?_
      rw [h2, List.length_tail]
      omega
    cases hst : s.stack with
    | nil => exact Wp.pure hw
    | cons k st =>
      cases k with
      | array => exact Wp.bind' (finishArray_up hw) fun _ _ h => next h.1 h.2
      | object => exact Wp.bind' (finishObject_up hw) fun _ _ h => next h.1 h.2

theorem skipToTopLevel_up (hw : W s) : Up skipToTopLevel s (fun _ s' => W s') := by
  unfold skipToTopLevel
  refine Wp.get (Wp.ite (fun _ => Up.usage) fun _ => ?_)
  refine Wp.ite_bind (fun _ => ?_) fun _ => ?_
  · exact Wp.bind' (skipValue_up hw) fun _ _ h => skipToTopLevelLoop_up h.1 (by rw [h.2.1]; exact Nat.le_refl _)
  · exact Wp.bind_ok (a := ()) rfl (skipToTopLevelLoop_up hw (Nat.le_refl _))

/-! ## Seeking -/

theorem seekItems_up {i : Nat} : ∀ {n : Nat} {s : St}, W s → Up (seekItems i n) s (fun _ s' => W s')
  | 0, s, hw => by
    unfold seekItems
    refine Wp.bind' (hasNext_up hw) ?_
    rintro b s1 ⟨h1, _⟩
    exact Wp.ite (fun _ => Wp.pure h1) fun _ => Up.structure h1
  | n + 1, s, hw => by
    unfold seekItems
    refine Wp.bind' (hasNext_up hw) ?_
    rintro b s1 ⟨h1, _⟩
    refine Wp.ite (fun _ => ?_) fun _ => Up.structure h1
    exact Wp.bind' (skipValue_up h1) fun _ _ h => seekItems_up h.1

theorem seekMembers_up {name : Text} : ∀ {n : Nat} {s : St}, W s → pot s < n → Up (seekMembers name n) s (fun _ s' => W s')
  | 0, s, hw, hn => absurd hn (Nat.not_lt_zero _)
  | n + 1, s, hw, hn => by
    unfold seekMembers
    refine Wp.bind' (hasNext_up hw) ?_
    rintro b s1 ⟨h1, h2, h3, _⟩
    refine Wp.ite (fun _ => ?_) fun _ => Up.structure h1
    refine Wp.bind' (nextName_up h1) ?_
    rintro t s2 h
    refine Wp.ite (fun _ => Wp.pure h.1) fun _ => ?_
    have := h.pot
    exact Wp.bind' (skipValue_up h.1) fun _ s3 e => seekMembers_up e.1 (by have := e.2.2; omega)

theorem seekToLoop_up : ∀ {ps : List PathPiece} {s : St}, W s → Up (seekToLoop ps) s (fun _ s' => W s')
  | [], s, hw => Wp.pure hw
  | p :: ps, s, hw => by
    unfold seekToLoop
    have : Up (seekToPiece p) s (fun _ s' => W s') := by
      cases p with
      | arrayItem i => exact Wp.bind' (beginArray_up hw) fun _ _ h => seekItems_up h.1
      | objectMember n => exact Wp.bind' (beginObject_up hw) fun _ _ h => Wp.get (seekMembers_up h.1 (pot_lt_fuel _))
    exact Wp.bind' this fun _ _ h => seekToLoop_up h

theorem seekTo_up {ps : List PathPiece} (hw : W s) : Up (seekTo ps) s (fun _ s' => W s') := by
  unfold seekTo
  exact Wp.bind' (peek_up hw) fun _ _ h => seekToLoop_up h.1

theorem seekBackLoop_up : ∀ {ps : List PathPiece} {s : St}, W s → Up (seekBackLoop ps) s (fun _ s' => W s')
  | [], s, hw => Wp.pure hw
  | .arrayItem _ :: ps, s, hw => Wp.bind' (finishArray_up hw) fun _ _ h => seekBackLoop_up h.1
  | .objectMember _ :: ps, s, hw => Wp.bind' (finishObject_up hw) fun _ _ h => seekBackLoop_up h.1

/-! ## String value reader -/

theorem strReadLoop_up {len : Nat} : ∀ {n : Nat} {sr : StrReader} {out : Bytes} {s : St}, WF s → s.peeked = none → s.expectsMemberName = false → SR sr (if out.length < len then [] else pnd) →
    out.length ≤ len → len ≤ out.length + n →
    Up (strReadLoop len n sr out) s (fun p s' => W s' ∧ s'.peeked = none ∧ (p.1.reachedEnd = true ∨ (s'.expectsMemberName = false ∧ ∃ pend, SR p.1 pend)))
  | 0, sr, out, s, hw, hp, he, hsr, ho, hn => by
    unfold strReadLoop
    rw [if_neg (by omega)]
    exact Wp.pure ⟨hw.w hp, hp, .inr ⟨he, _, hsr⟩⟩
  | n + 1, sr, out, s, hw, hp, he, hsr, ho, hn => by
    unfold strReadLoop
    refine Wp.ite (fun hl => ?_) fun _ => Wp.pure ⟨hw.w hp, hp, .inr ⟨he, _, hsr⟩⟩
    rw [if_pos hl] at hsr
    refine Wp.ite (fun h => ?_) fun _ => ?_
    · rw [hsr.start rfl, hsr.count] at h
      cases h
    · refine Wp.bind' (Low.up readStringBytes_low hw hp) ?_
      rintro ⟨re, bs⟩ s1 ⟨hf, _, hb⟩
      have hbl : bs.length ≤ 4 := by
        rcases hb with h | ⟨c, h⟩
        · cases h; decide
        · cases h; rw [String.length_utf8EncodeChar]; exact Char.utf8Size_le_four c
      obtain ⟨sr', e1, e2⟩ := strConsume_run (s := s1) (len := len) (bs := bs) (out := out) hsr (by omega) ho
      refine Wp.bind_ok e1 ?_
      dsimp only
      refine Wp.ite (fun _ => ?_) fun hre => ?_
      · refine Wp.bind_ok rfl (Wp.bind' (onValueEnd_up (s := { s1 with stringReaderActive := false }) ⟨(hw.fr hf).path, (hw.fr hf).name⟩ (hf.peeked.trans hp) (hf.emn.trans he)) ?_)
        rintro _ s2 ⟨f1, _, f3, _⟩
        exact Wp.pure ⟨f1, f3, .inl rfl⟩
      · have hb1 : 1 ≤ bs.length := by
          rcases hb with h | ⟨c, h⟩
          · cases h; exact absurd rfl hre
          · cases h; exact List.length_pos_iff.2 (encodeChar_ne_nil c)
        refine strReadLoop_up (pnd := bs.drop (len - out.length)) (hw.fr hf) (hf.peeked.trans hp) (hf.emn.trans he) ?_ ?_ ?_
        · split
          · rename_i h
            rw [List.length_append, List.length_take] at h
            have : bs.drop (len - out.length) = [] := List.drop_eq_nil_iff.2 (by omega)
            rw [this] at e2
            exact e2
          · exact e2
        · rw [List.length_append, List.length_take]; omega
        · rw [List.length_append, List.length_take]; omega

theorem strReadsOk_up : ∀ {lens : List Nat} {sr : StrReader} {s : St}, W s → s.peeked = none → (sr.reachedEnd = true ∨ (s.expectsMemberName = false ∧ ∃ pend, SR sr pend)) →
    Up (strReadsOk lens sr) s (fun _ s' => W s')
  | [], sr, s, hw, hp, h => Wp.pure hw
  | len :: lens, sr, s, hw, hp, h => by
    rcases h with h | ⟨he, pend, h⟩
    · exact Wp.of_ok (strReads_ended h _) hw
    · unfold strReadsOk strReadImpl
      rw [h.notEnd]
      refine Wp.ite_bind (fun hl => ?_) fun hl => ?_
      · exact Wp.bind_ok rfl (Wp.bind' (strReadsOk_up hw hp (.inr ⟨he, pend, h⟩)) fun _ _ h => Wp.pure h)
      · have hl : 0 < len := by
          cases len with
          | zero => exact absurd rfl hl
          | succ => exact Nat.succ_pos _
        obtain ⟨sr', e1, e2⟩ := strDrain_run (s := s) h hl
        refine Wp.bind (Wp.bind_ok e1 ?_)
        refine (strReadLoop_up (pnd := pend.drop len) hw.toWF hp he ?_ (by rw [List.length_take]; omega) (by omega)).post ?_
        · split
          · rename_i hlt
            rw [List.length_take] at hlt
            have : pend.drop len = [] := List.drop_eq_nil_iff.2 (by omega)
            rw [this] at e2
            exact e2
          · exact e2
        · rintro ⟨sr2, out⟩ s2 ⟨f1, f2, f3⟩
          exact Wp.bind' (strReadsOk_up f1 f2 f3) fun _ _ h => Wp.pure h

theorem stringReader_up {lens : List Nat} (hw : W s) : Up (runOp (.stringReader lens)) s (fun _ s' => W s') := by
  unfold runOp
  dsimp only
  unfold nextStringReader
  refine Wp.bind (Wp.bind' (start_up hw) ?_)
  rintro p s1 ⟨h1, h2, h3, h4, ⟨s2, h5⟩, h6⟩
  refine Wp.bind_ok rfl (Wp.pure ?_)
  refine Wp.bind' (strReadsOk_up (WF.w ⟨h1.path, h1.name⟩ h3) h3 (.inr ⟨h4, [], SR.new⟩)) fun _ _ h => Wp.pure h

/-! ## All calls -/

theorem op_up {op : Op} (hw : W s) (ho : op ≠ .consumeTrailingWhitespace) : Up (runOp op) s (fun _ s' => W s') := by
  cases op with
  | stringReader lens => exact stringReader_up hw
  | consumeTrailingWhitespace => exact absurd rfl ho
  | currentPosition b => exact Wp.get (Wp.pure hw)
  | peek => exact Wp.bind' (peek_up hw) fun _ _ h => Wp.pure h.1
  | beginArray => exact Wp.bind' (beginArray_up hw) fun _ _ h => Wp.pure h.1
  | endArray => exact Wp.bind' (endArray_up hw) fun _ _ h => Wp.pure h.1
  | beginObject => exact Wp.bind' (beginObject_up hw) fun _ _ h => Wp.pure h.1
  | endObject => exact Wp.bind' (endObject_up hw) fun _ _ h => Wp.pure h.1
  | nextName => exact Wp.bind' (nextName_up hw) fun _ _ h => Wp.pure h.1
  | nextNameOwned => exact Wp.bind' (nextNameOwned_up hw) fun _ _ h => Wp.pure h.1
  | nextString => exact Wp.bind' (nextString_up hw) fun _ _ h => Wp.pure h.1
  | nextStr => exact Wp.bind' (nextStr_up hw) fun _ _ h => Wp.pure h.1
  | nextNumberAsStr => exact Wp.bind' (nextNumberAsStr_up hw) fun _ _ h => Wp.pure h.1
  | nextNumberAsString => exact Wp.bind' (nextNumberAsString_up hw) fun _ _ h => Wp.pure h.1
  | nextBool => exact Wp.bind' (nextBool_up hw) fun _ _ h => Wp.pure h.1
  | nextNull => exact Wp.bind' (nextNull_up hw) fun _ _ h => Wp.pure h.1
  | hasNext => exact Wp.bind' (hasNext_up hw) fun _ _ h => Wp.pure h.1
  | skipName => exact Wp.bind' (skipName_up hw) fun _ _ h => Wp.pure h.1
  | skipValue => exact Wp.bind' (skipValue_up hw) fun _ _ h => Wp.pure h.1
  | skipToTopLevel => exact Wp.bind' (skipToTopLevel_up hw) fun _ _ h => Wp.pure h
  | seekTo ps => exact Wp.bind' (seekTo_up hw) fun _ _ h => Wp.pure h
  | seekBack ps => exact Wp.bind' (seekBackLoop_up hw) fun _ _ h => Wp.pure h

/-- the errors of `consume_trailing_whitespace` -/
def Tame : RErr → Prop
  | .panic (.internal _) => False
  | .outOfFuel => False
  | _ => True

theorem trailing_up : Wp (consumeTrailingWhitespace : R AbsSrc _) s (fun _ _ => True) (fun e _ => Tame e) := by
  unfold consumeTrailingWhitespace
  refine Wp.get (Wp.ite (fun _ => Wp.of_err rfl trivial) fun _ => Wp.ite (fun _ => Wp.ite (fun _ => Wp.of_err rfl trivial) fun _ => ?_) fun _ => Wp.of_err rfl trivial)
  refine Wp.bind' (skipWhitespace_low.mono (fun _ _ h => h) fun e _ h => ?_) ?_
  · cases e <;> first | exact h.1.elim | trivial
  · rintro o s1 _
    cases o
    · exact Wp.pure trivial
    · exact Wp.of_err rfl trivial

theorem G.tame {e : RErr} {s' : St} (h : G e s') : Tame e := by
  cases e with
  | panic p => cases p <;> first | exact h | trivial
  | outOfFuel => exact h
  | _ => trivial

end Verif.Abs.After
