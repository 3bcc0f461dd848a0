import Verif.Model.Reader
/-!
# Relational reasoning: two readers running side by side

The reader on a source of type `σ1` with settings `set1` and the reader on a source of type `σ2` with settings `set2`
are run with the same method calls. `Sim` collects what has to be known about the two sources and the two settings;
from this follows (`Verif.Proofs.RelReader`) that each method gives the same result for both readers, unless the first one fails
with an error in the set `X`.

It is used for: the reader with its internal buffer versus the list of bytes (C01, C02), the truncated input versus the
complete input (C30), strict versus lenient settings (C13).
-/

namespace Verif

/-- Relation between two results: same value and related states, or same error; an error from `X` on the left side is related
to everything. `I`: relation of the states after an error. -/
def RR {ε S1 S2 α : Type} (X : ε → Prop) (I : ε → S1 → S2 → Prop) (Q : α → S1 → S2 → Prop) :
    Res ε S1 α → Res ε S2 α → Prop
  | .ok a t1, .ok b t2 => a = b ∧ Q a t1 t2
  | .err e1 t1, .err e2 t2 => X e1 ∨ (e1 = e2 ∧ I e1 t1 t2)
  | .err e1 _, .ok _ _ => X e1
  | .ok _ _, .err _ _ => False

namespace RR
variable {ε S1 S2 α β : Type} {X : ε → Prop} {I : ε → S1 → S2 → Prop}

theorem mono {Q Q' : α → S1 → S2 → Prop} (hQ : ∀ a t1 t2, Q a t1 t2 → Q' a t1 t2)
    {r1 : Res ε S1 α} {r2 : Res ε S2 α} (h : RR X I Q r1 r2) : RR X I Q' r1 r2 := by
  cases r1 <;> cases r2
  · exact ⟨h.1, hQ _ _ _ h.2⟩
  · exact h
  · exact h
  · exact h

end RR

/-- Pointwise relation of two computations -/
def RelAt {ε S1 S2 α : Type} (X : ε → Prop) (I : ε → S1 → S2 → Prop) (s1 : S1) (s2 : S2)
    (m1 : M ε S1 α) (m2 : M ε S2 α) (Q : α → S1 → S2 → Prop) : Prop :=
  RR X I Q (m1.run s1) (m2.run s2)

/-- Relation of two computations for all states related by `P` -/
def RelT {ε S1 S2 α : Type} (X : ε → Prop) (I : ε → S1 → S2 → Prop) (P : S1 → S2 → Prop)
    (m1 : M ε S1 α) (m2 : M ε S2 α) (Q : α → S1 → S2 → Prop) : Prop :=
  ∀ s1 s2, P s1 s2 → RelAt X I s1 s2 m1 m2 Q

section
variable {ε S1 S2 α β : Type} {X : ε → Prop} {I : ε → S1 → S2 → Prop} {s1 : S1} {s2 : S2}

theorem RelAt.pure {Q : α → S1 → S2 → Prop} (a : α) (h : Q a s1 s2) :
    RelAt X I s1 s2 (pure a) (pure a) Q := ⟨rfl, h⟩

theorem RelAt.fail {Q : α → S1 → S2 → Prop} (e : ε) (h : I e s1 s2) :
    RelAt X I s1 s2 (M.fail e) (M.fail e) Q := .inr ⟨rfl, h⟩

theorem RelAt.bind {m1 : M ε S1 α} {m2 : M ε S2 α} {f1 : α → M ε S1 β} {f2 : α → M ε S2 β}
    {Q : α → S1 → S2 → Prop} {R : β → S1 → S2 → Prop}
    (hm : RelAt X I s1 s2 m1 m2 Q) (hf : ∀ a, RelT X I (Q a) (f1 a) (f2 a) R) :
    RelAt X I s1 s2 (m1 >>= f1) (m2 >>= f2) R := by
  unfold RelAt at *
  rw [M.run_bind, M.run_bind]
  cases h1 : m1.run s1 with
  | ok a t1 =>
    cases h2 : m2.run s2 with
    | ok b t2 =>
      rw [h1, h2] at hm
      obtain ⟨rfl, hq⟩ := hm
      exact hf a t1 t2 hq
    | err e t2 => rw [h1, h2] at hm; exact hm.elim
  | err e t1 =>
    cases h2 : m2.run s2 with
    | ok b t2 =>
      rw [h1, h2] at hm
      dsimp only
      cases (f2 b).run t2
      · exact hm
      · exact .inl hm
    | err e t2 => rw [h1, h2] at hm; exact hm

theorem RelT.bind {P : S1 → S2 → Prop} {m1 : M ε S1 α} {m2 : M ε S2 α} {f1 : α → M ε S1 β} {f2 : α → M ε S2 β}
    {Q : α → S1 → S2 → Prop} {R : β → S1 → S2 → Prop}
    (hm : RelT X I P m1 m2 Q) (hf : ∀ a, RelT X I (Q a) (f1 a) (f2 a) R) :
    RelT X I P (m1 >>= f1) (m2 >>= f2) R := fun s1 s2 hp => RelAt.bind (hm s1 s2 hp) hf

theorem RelAt.get {f1 : S1 → M ε S1 β} {f2 : S2 → M ε S2 β} {R : β → S1 → S2 → Prop}
    (h : RelAt X I s1 s2 (f1 s1) (f2 s2) R) :
    RelAt X I s1 s2 (M.get >>= f1) (M.get >>= f2) R := h

theorem RelAt.set {t1 : S1} {t2 : S2} {R : Unit → S1 → S2 → Prop} (h : R () t1 t2) :
    RelAt X I s1 s2 (M.set t1) (M.set t2) R := ⟨rfl, h⟩

theorem RelAt.modify {f1 : S1 → S1} {f2 : S2 → S2} {R : Unit → S1 → S2 → Prop} (h : R () (f1 s1) (f2 s2)) :
    RelAt X I s1 s2 (M.modify f1) (M.modify f2) R := ⟨rfl, h⟩

theorem RelAt.ite {c : Prop} [Decidable c] {a1 b1 : M ε S1 α} {a2 b2 : M ε S2 α} {Q : α → S1 → S2 → Prop}
    (ha : c → RelAt X I s1 s2 a1 a2 Q) (hb : ¬c → RelAt X I s1 s2 b1 b2 Q) :
    RelAt X I s1 s2 (if c then a1 else b1) (if c then a2 else b2) Q := by
  split
  · exact ha ‹_›
  · exact hb ‹_›

theorem RelAt.left {m1 : M ε S1 α} {m2 : M ε S2 α} {Q : α → S1 → S2 → Prop} {e : ε} {t1 : S1}
    (h : m1.run s1 = .err e t1) (hX : X e) : RelAt X I s1 s2 m1 m2 Q := by
  unfold RelAt
  rw [h]
  cases m2.run s2
  · exact hX
  · exact .inl hX

theorem RelT.ite {P : S1 → S2 → Prop} {c : Prop} [Decidable c] {a1 b1 : M ε S1 α} {a2 b2 : M ε S2 α}
    {Q : α → S1 → S2 → Prop}
    (ha : c → RelT X I P a1 a2 Q) (hb : ¬c → RelT X I P b1 b2 Q) :
    RelT X I P (if c then a1 else b1) (if c then a2 else b2) Q :=
  fun s1 s2 hp => RelAt.ite (fun h => ha h s1 s2 hp) (fun h => hb h s1 s2 hp)

theorem RelT.pure {P : S1 → S2 → Prop} {Q : α → S1 → S2 → Prop} (a : α) (h : ∀ s1 s2, P s1 s2 → Q a s1 s2) :
    RelT X I P (pure a) (pure a) Q := fun s1 s2 hp => RelAt.pure a (h s1 s2 hp)

theorem RelT.fail {P : S1 → S2 → Prop} {Q : α → S1 → S2 → Prop} (e : ε) (h : ∀ s1 s2, P s1 s2 → I e s1 s2) :
    RelT X I P (M.fail e) (M.fail e) Q := fun s1 s2 hp => RelAt.fail e (h s1 s2 hp)

theorem RelT.post {P : S1 → S2 → Prop} {m1 : M ε S1 α} {m2 : M ε S2 α} {Q Q' : α → S1 → S2 → Prop}
    (h : RelT X I P m1 m2 Q) (hQ : ∀ a t1 t2, Q a t1 t2 → Q' a t1 t2) : RelT X I P m1 m2 Q' :=
  fun s1 s2 hp => RR.mono hQ (h s1 s2 hp)

theorem RelT.pre {P P' : S1 → S2 → Prop} {m1 : M ε S1 α} {m2 : M ε S2 α} {Q : α → S1 → S2 → Prop}
    (h : RelT X I P m1 m2 Q) (hP : ∀ t1 t2, P' t1 t2 → P t1 t2) : RelT X I P' m1 m2 Q :=
  fun s1 s2 hp => h s1 s2 (hP _ _ hp)

theorem RelAt.post {m1 : M ε S1 α} {m2 : M ε S2 α} {Q Q' : α → S1 → S2 → Prop}
    (h : RelAt X I s1 s2 m1 m2 Q) (hQ : ∀ a t1 t2, Q a t1 t2 → Q' a t1 t2) : RelAt X I s1 s2 m1 m2 Q' :=
  RR.mono hQ h

end

/-- Phases of the byte access. `k`: the next byte (if any) is available without reading from the underlying reader; `l`: the last byte
of the value was consumed directly before -/
inductive Phase where
  | idle (k : Bool)
  | value (k l : Bool)
  | valueFinal
  | held (k borrowed : Bool)
deriving DecidableEq

/-- Error of a byte access operation as reader error -/
def srcRErr (e : SrcErr) (l : Position) : RErr :=
  match e with
  | .io c => .io (.source c) l
  | .panic p => .panic p

/-- Errors after which the documentation of `ReaderError` allows to continue using the reader -/
def RErr.nonfatal : RErr → Prop
  | .syntax _ _ => False
  | .io _ _ => False
  | .panic _ => False
  | .outOfFuel => False
  | _ => True

/-- Errors because of the data: after them the reader should not be used any further according to the documentation -/
def RErr.data : RErr → Prop
  | .syntax _ _ => True
  | .io _ _ => True
  | _ => False

/-- the error which leaves `buf_used_for_bytes_value` set -/
def RErr.trailing : RErr → Bool
  | .syntax .trailingDataAfterNumber _ => true
  | _ => false

/-- no `BytesValue` exists -/
class Phase.NotHeld (p : Phase) : Prop where
  out : ∀ k b, p ≠ .held k b

instance {k : Bool} : (Phase.idle k).NotHeld := ⟨nofun⟩
instance {k l : Bool} : (Phase.value k l).NotHeld := ⟨nofun⟩
instance : Phase.NotHeld .valueFinal := ⟨nofun⟩

/-- Relation of byte access operations; `J`: what holds after an error of the underlying reader -/
def OpRel {σ1 σ2 α : Type} (X : RErr → Prop) (J : σ1 → Prop) (P : σ1 → σ2 → Prop) (m1 : M SrcErr σ1 α) (m2 : M SrcErr σ2 α)
    (Q : α → σ1 → σ2 → Prop) : Prop :=
  RelT (fun e => ∀ l, X (srcRErr e l)) (fun e c _ => ∀ k, e = .io k → J c) P m1 m2 Q

/-- What is needed about two sources and two settings, see the comment of this file -/
structure Sim (σ1 σ2 : Type) [ByteSource σ1] [ByteSource σ2] where
  rel : Phase → σ1 → σ2 → Prop
  X : RErr → Prop
  /-- what is known about the first source after a syntax error or an error of the underlying reader; the flag tells whether the error was
  `TrailingDataAfterNumber` -/
  fin : Bool → σ1 → Prop
  finOf : ∀ p c a, p.NotHeld → rel p c a → fin false c
  finHeld : ∀ k b c a, rel (.held k b) c a → fin true c
  finMono : ∀ c, fin false c → fin true c
  set1 : Settings
  set2 : Settings
  weakenIdle : ∀ c a, rel (.idle true) c a → rel (.idle false) c a
  weakenValue : ∀ l c a, rel (.value false l) c a → rel (.value false false) c a
  weakenHeld : ∀ b c a, rel (.held true b) c a → rel (.held false b) c a
  peekByte : OpRel X (fin false) (rel (.idle false)) ByteSource.peekByte ByteSource.peekByte (fun _ => rel (.idle true))
  peekByteHeld : ∀ b, OpRel X (fin false) (rel (.held true b)) ByteSource.peekByte ByteSource.peekByte (fun _ => rel (.held true b))
  skipPeekedByte : OpRel X (fin false) (rel (.idle true)) ByteSource.skipPeekedByte ByteSource.skipPeekedByte (fun _ => rel (.idle false))
  vNew : ∀ k, OpRel X (fin false) (rel (.idle k)) ByteSource.vNew ByteSource.vNew (fun _ => rel (.value k false))
  vPeek : OpRel X (fin false) (rel (.value false false)) ByteSource.vPeek ByteSource.vPeek (fun _ => rel (.value true false))
  vConsume : OpRel X (fin false) (rel (.value true false)) ByteSource.vConsume ByteSource.vConsume (fun _ => rel (.value false true))
  vSkipPrevious : OpRel X (fin false) (rel (.value false true)) ByteSource.vSkipPrevious ByteSource.vSkipPrevious
    (fun _ => rel (.value false false))
  vSkipFinal : OpRel X (fin false) (rel (.value false true)) ByteSource.vSkipFinal ByteSource.vSkipFinal (fun _ => rel .valueFinal)
  vPush : ∀ bs, OpRel X (fin false) (rel (.value false false)) (ByteSource.vPush bs) (ByteSource.vPush bs)
    (fun _ => rel (.value false false))
  vGetFinal : ∀ b, OpRel X (fin false) (rel .valueFinal) (ByteSource.vGet b) (ByteSource.vGet b) (fun _ => rel (.held false b))
  vGet : ∀ b, OpRel X (fin false) (rel (.value true false)) (ByteSource.vGet b) (ByteSource.vGet b) (fun _ => rel (.held true b))
  getString : ∀ b, OpRel X (fin false) (rel (.held false b)) ByteSource.getString ByteSource.getString (fun _ => rel (.idle false))
  getStr : OpRel X (fin false) (rel (.held false true)) ByteSource.getStr ByteSource.getStr (fun _ => rel (.idle false))
  getStrPeek : OpRel X (fin false) (rel (.held false true)) ByteSource.getStrPeek ByteSource.getStrPeek
    (fun _ => rel (.held false true))
  remaining : ∀ p c a, rel p c a → ByteSource.remaining c = ByteSource.remaining a ∨
    (ByteSource.remaining c ≤ ByteSource.remaining a ∧ X .outOfFuel)
  comments : set1.allowComments = true → set2.allowComments = true
  commentsX : set1.allowComments = false → set2.allowComments = true → ∀ l, X (.syntax .commentsNotEnabled l)
  trailingComma : set1.allowTrailingComma = true → set2.allowTrailingComma = true
  trailingCommaX : set1.allowTrailingComma = false → set2.allowTrailingComma = true →
    ∀ l, X (.syntax .trailingCommaNotEnabled l)
  multi : set1.allowMultipleTopLevel = true → set2.allowMultipleTopLevel = true
  multiX : set1.allowMultipleTopLevel = false → set2.allowMultipleTopLevel = true →
    (∀ p, X (.panic (.usage p))) ∧ ∀ l, X (.syntax .incompleteDocument l)
  depth : ∀ m2, set2.maxNestingDepth = some m2 → ∃ m1, set1.maxNestingDepth = some m1 ∧ m1 ≤ m2
  depthX : ∀ m1, set1.maxNestingDepth = some m1 → set2.maxNestingDepth = some m1 ∨
    ∀ m l, X (.maxNestingDepthExceeded m l)
  restrict : set2.restrictNumberValues = true → set1.restrictNumberValues = true
  restrictX : set1.restrictNumberValues = true → set2.restrictNumberValues = false →
    (∀ t l, X (.unsupportedNumberValue t l)) ∧ (∀ p, X (.panic (.internal p))) ∧
    (∀ (c c' : σ1) e, (ByteSource.vGet false : M SrcErr σ1 Unit).run c = .err e c' → ∃ p, e = .panic (.internal p)) ∧
    (∀ (c c' : σ1) e, (ByteSource.getString : M SrcErr σ1 Text).run c = .err e c' → ∃ p, e = .panic (.internal p))

namespace Sim
variable {σ1 σ2 : Type} [ByteSource σ1] [ByteSource σ2] (S : Sim σ1 σ2)

/-- Relation of the reader states -/
inductive RRel (p : Phase) : RState σ1 → RState σ2 → Prop
  | mk {c : σ1} {a : σ2} (h : S.rel p c a) (pk : Option Peeked) (e m : Bool) (st : List StackValue) (sa : Bool)
      (l col b : Nat) (pa : Option (List PathPiece)) :
      RRel p ⟨c, pk, e, m, st, sa, l, col, b, pa, S.set1⟩ ⟨a, pk, e, m, st, sa, l, col, b, pa, S.set2⟩

/-- Relation of the reader states after a syntax error or an error of the underlying reader: everything except for the sources is the same -/
inductive FRel (b : Bool) : RState σ1 → RState σ2 → Prop
  | mk {c : σ1} {a : σ2} (h : S.fin b c) (pk : Option Peeked) (e m : Bool) (st : List StackValue) (sa : Bool)
      (l col bp : Nat) (pa : Option (List PathPiece)) :
      FRel b ⟨c, pk, e, m, st, sa, l, col, bp, pa, S.set1⟩ ⟨a, pk, e, m, st, sa, l, col, bp, pa, S.set2⟩

/-- Relation of the reader states after an error -/
def ERel (e : RErr) (t1 : RState σ1) (t2 : RState σ2) : Prop :=
  (e.nonfatal → S.RRel (.idle false) t1 t2) ∧ (e.data → S.FRel e.trailing t1 t2)

/-- `RelAt` for reader methods -/
abbrev At {α : Type} (s1 : RState σ1) (s2 : RState σ2) (m1 : R σ1 α) (m2 : R σ2 α) (Q : α → Phase) : Prop :=
  RelAt S.X S.ERel s1 s2 m1 m2 (fun a => S.RRel (Q a))

/-- `RelT` for reader methods: from phase `p` to phase `Q result` -/
abbrev T {α : Type} (p : Phase) (m1 : R σ1 α) (m2 : R σ2 α) (Q : α → Phase) : Prop :=
  RelT S.X S.ERel (S.RRel p) m1 m2 (fun a => S.RRel (Q a))

variable {S}

theorem RRel.fin {p : Phase} {b : Bool} {s1 : RState σ1} {s2 : RState σ2} (h : S.RRel p s1 s2) (hp : p.NotHeld ∨ b = true) : S.FRel b s1 s2 := by
  obtain ⟨hr, pk, e, m, st, sa, l, col, bp, pa⟩ := h
  rename_i c a
  refine FRel.mk ?_ ..
  cases p with
  | held k b' => exact hp.resolve_left (fun h => h.out _ _ rfl) ▸ S.finHeld _ _ _ _ hr
  | _ =>
    have := S.finOf _ _ _ inferInstance hr
    cases b
    · exact this
    · exact S.finMono _ this

theorem ERel.of_data {e : RErr} {p : Phase} {s1 : RState σ1} {s2 : RState σ2} (h : S.RRel p s1 s2) (he : ¬ e.nonfatal) (hp : p.NotHeld ∨ e.trailing = true) :
    S.ERel e s1 s2 := ⟨fun h => absurd h he, fun _ => h.fin hp⟩

theorem ERel.of_panic {e : RErr} {s1 : RState σ1} {s2 : RState σ2} (he : ¬ e.nonfatal) (hd : ¬ e.data) :
    S.ERel e s1 s2 := ⟨fun h => absurd h he, fun h => absurd h hd⟩

theorem ERel.of_nonfatal {e : RErr} {s1 : RState σ1} {s2 : RState σ2} (h : S.RRel (.idle false) s1 s2) (hd : ¬ e.data) :
    S.ERel e s1 s2 := ⟨fun _ => h, fun h => absurd h hd⟩

/-- if the sources are related everything is fine for any error -/
theorem ERel.of_rel {e : RErr} {s1 : RState σ1} {s2 : RState σ2} (h : S.RRel (.idle false) s1 s2) : S.ERel e s1 s2 :=
  ⟨fun _ => h, fun _ => h.fin (.inl inferInstance)⟩

theorem liftS {α : Type} {p q : Phase} {m1 : M SrcErr σ1 α} {m2 : M SrcErr σ2 α}
    (h : OpRel S.X (S.fin false) (S.rel p) m1 m2 (fun _ => S.rel q)) : S.T p (Reader.liftS m1) (Reader.liftS m2) (fun _ => q) := by
  rintro _ _ ⟨hr, pk, e, m, st, sa, l, col, b, pa⟩
  rename_i c a
  have h := h c a hr
  unfold RelAt at *
  unfold Reader.liftS
  dsimp only
  cases h1 : m1.run c with
  | ok x t1 =>
    cases h2 : m2.run a with
    | ok y t2 =>
      rw [h1, h2] at h
      exact ⟨h.1, RRel.mk h.2 ..⟩
    | err e t2 => rw [h1, h2] at h; exact h.elim
  | err e1 t1 =>
    cases h2 : m2.run a with
    | ok y t2 =>
      rw [h1, h2] at h
      cases e1
      · exact h _
      · exact h (Reader.loc ⟨c, none, false, false, [], false, 0, 0, 0, none, S.set1⟩)
    | err e2 t2 =>
      rw [h1, h2] at h
      rcases h with h | ⟨rfl, hj⟩
      · cases e1 <;> cases e2
        · exact .inl (h _)
        · exact .inl (h _)
        · exact .inl (h (Reader.loc ⟨c, none, false, false, [], false, 0, 0, 0, none, S.set1⟩))
        · exact .inl (h (Reader.loc ⟨c, none, false, false, [], false, 0, 0, 0, none, S.set1⟩))
      · cases e1
        · exact .inr ⟨rfl, fun h => h.elim, fun _ => FRel.mk (hj _ rfl) ..⟩
        · exact .inr ⟨rfl, .of_panic id id⟩

theorem syntaxErr' {α : Type} {p : Phase} (k : SyntaxKind) (Q : α → Phase) (hp : p.NotHeld ∨ k = .trailingDataAfterNumber) :
    S.T p (Reader.syntaxErr k) (Reader.syntaxErr k) Q := by
  rintro s1 s2 h
  have he : S.ERel (.syntax k (Reader.loc s1)) s1 s2 := .of_data h id (hp.imp_right fun h => by rw [h]; rfl)
  obtain ⟨hr, pk, e, m, st, sa, l, col, b, pa⟩ := h
  exact .inr ⟨rfl, he⟩

theorem syntaxErr {α : Type} {p : Phase} (k : SyntaxKind) (Q : α → Phase) [hp : p.NotHeld] :
    S.T p (Reader.syntaxErr k) (Reader.syntaxErr k) Q := syntaxErr' k Q (.inl hp)

theorem ioErr {α : Type} {p : Phase} (k : IoErr) (Q : α → Phase) [hp : p.NotHeld] :
    S.T p (Reader.ioErr k) (Reader.ioErr k) Q := by
  rintro s1 s2 h
  have he : S.ERel (.io k (Reader.loc s1)) s1 s2 := .of_data h id (.inl hp)
  obtain ⟨hr, pk, e, m, st, sa, l, col, b, pa⟩ := h
  exact .inr ⟨rfl, he⟩

theorem structureErr {α : Type} (k : StructureKind) (Q : α → Phase) :
    S.T (.idle false) (Reader.structureErr k) (Reader.structureErr k) Q := by
  rintro _ _ ⟨hr, pk, e, m, st, sa, l, col, b, pa⟩
  exact .inr ⟨rfl, .of_nonfatal (RRel.mk hr ..) id⟩

theorem usagePanic {α : Type} {p : Phase} (k : UsagePanic) (Q : α → Phase) :
    S.T p (Reader.usagePanic k) (Reader.usagePanic k) Q := by
  rintro _ _ ⟨hr, pk, e, m, st, sa, l, col, b, pa⟩
  exact .inr ⟨rfl, .of_panic id id⟩

theorem internalPanic {α : Type} {p : Phase} (k : InternalPanic) (Q : α → Phase) :
    S.T p (Reader.internalPanic k) (Reader.internalPanic k) Q := by
  rintro _ _ ⟨hr, pk, e, m, st, sa, l, col, b, pa⟩
  exact .inr ⟨rfl, .of_panic id id⟩

/-- Fuel of the two readers: the same, or the first one has less fuel and running out of fuel is exempt -/
def FuelLe (S : Sim σ1 σ2) (f1 f2 : Nat) : Prop := f1 = f2 ∨ (f1 ≤ f2 ∧ S.X .outOfFuel)

theorem FuelLe.succ {f1 f2 : Nat} (h : S.FuelLe (f1 + 1) f2) : ∃ n, f2 = n + 1 ∧ S.FuelLe f1 n := by
  rcases h with h | ⟨h, hx⟩
  · exact ⟨f1, h.symm, .inl rfl⟩
  · exact ⟨f2 - 1, by omega, .inr ⟨by omega, hx⟩⟩

theorem FuelLe.add {f1 f2 : Nat} (h : S.FuelLe f1 f2) (n : Nat) : S.FuelLe (f1 + n) (f2 + n) := by
  rcases h with h | ⟨h, hx⟩
  · exact .inl (by omega)
  · exact .inr ⟨by omega, hx⟩

theorem outOfFuel {α : Type} {P : RState σ1 → RState σ2 → Prop} {f2 : Nat} (hf : S.FuelLe 0 f2) {m2 : R σ2 α}
    (hm : f2 = 0 → m2 = M.fail .outOfFuel) (Q : α → Phase) :
    RelT S.X S.ERel P (M.fail .outOfFuel) m2 (fun a => S.RRel (Q a)) := by
  intro s1 s2 h
  rcases hf with rfl | ⟨_, hx⟩
  · rw [hm rfl]
    exact .inr ⟨rfl, .of_panic id id⟩
  · show RR _ _ _ (.err RErr.outOfFuel s1) _
    cases m2.run s2
    · exact hx
    · exact .inl hx

theorem pureT {α : Type} {p : Phase} (a : α) {Q : α → Phase} (h : Q a = p) :
    S.T p (pure a) (pure a) Q := RelT.pure a (fun _ _ hp => h ▸ hp)

theorem pureP {α : Type} {p : Phase} (a : α) : S.T p (pure a) (pure a) (fun _ => p) := RelT.pure a (fun _ _ h => h)

theorem advance {p : Phase} (x y : Nat) : S.T p (Reader.advance x y) (Reader.advance x y) (fun _ => p) := by
  rintro _ _ ⟨hr, pk, e, m, st, sa, l, col, b, pa⟩
  exact ⟨rfl, RRel.mk hr ..⟩

theorem unwrap {α : Type} {p : Phase} (x : Option α) :
    S.T p (Reader.unwrap x) (Reader.unwrap x) (fun _ => p) := by
  cases x
  · exact internalPanic (S := S) _ _
  · exact pureT _ rfl

theorem fuel_le {p : Phase} {s1 : RState σ1} {s2 : RState σ2} (h : S.RRel p s1 s2) :
    S.FuelLe (Reader.fuel s1) (Reader.fuel s2) := by
  obtain ⟨hr, pk, e, m, st, sa, l, col, b, pa⟩ := h
  exact FuelLe.add (S.remaining p _ _ hr) 2

theorem weakenI {s1 : RState σ1} {s2 : RState σ2} {k : Bool} (h : S.RRel (.idle k) s1 s2) : S.RRel (.idle false) s1 s2 := by
  obtain ⟨hr, pk, e, m, st, sa, l, col, b, pa⟩ := h
  cases k
  · exact RRel.mk hr ..
  · exact RRel.mk (S.weakenIdle _ _ hr) ..

theorem weakenV {s1 : RState σ1} {s2 : RState σ2} {l : Bool} (h : S.RRel (.value false l) s1 s2) :
    S.RRel (.value false false) s1 s2 := by
  obtain ⟨hr, pk, e, m, st, sa, l, col, b, pa⟩ := h
  exact RRel.mk (S.weakenValue _ _ _ hr) ..

theorem weakenH {s1 : RState σ1} {s2 : RState σ2} {k b : Bool} (h : S.RRel (.held k b) s1 s2) : S.RRel (.held false b) s1 s2 := by
  obtain ⟨hr, pk, e, m, st, sa, l, col, b, pa⟩ := h
  cases k
  · exact RRel.mk hr ..
  · exact RRel.mk (S.weakenHeld _ _ _ hr) ..

end Sim
end Verif
