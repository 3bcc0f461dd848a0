import Verif.Proofs.Abs.Inv
import Verif.Spec.Usage
/-!
# All methods preserve the invariant

`At st inp g c s`: the reader is in state `s`, the part of the document described by `c` has been consumed. If `g` holds ("good"), then the
consumed part is a correct beginning of the input `inp`, and the position is accurate. `g` is lost only by `UnsupportedNumberValue` errors, which
leave the reader behind a number which is not counted.
-/

namespace Verif.Abs
open Reader Utf8 Json

section
variable (st : Settings) (inp : Bytes) (g : Prop)

def DepthOk (c : Ctx) : Prop := ∀ n, st.maxNestingDepth = some n → c.stack.length ≤ n

def DeepOk (c : Ctx) : Prop := ∀ n, st.maxNestingDepth = some n → c.depth ≤ n

/-- nothing peeked -/
structure InvN (c : Ctx) (pos : Pos) (r : Bytes) : Prop where
  wf : c.Wf
  depth : DeepOk st c
  bare : BareInv c r
  good : g → c.Ok st ∧ ((inp = c.bytes ++ r ∧ pos = posOf c.bytes) ∨
    (r = [] ∧ (∃ d, c = .top d ∧ d ≠ []) ∧ ∃ t : TrailWs, t.Ok st.allowComments ∧ inp = c.bytes ++ t.bytes ∧ pos = posOf inp))

/-- nothing peeked, and the reader is directly behind the last token -/
structure InvX (c : Ctx) (pos : Pos) (r : Bytes) : Prop extends InvN st inp g c pos r where
  exact : g → inp = c.bytes ++ r ∧ pos = posOf c.bytes

/-- a token is peeked -/
structure InvP (c : Ctx) (p : Peeked) (l : Lead) (pos : Pos) (r : Bytes) : Prop where
  wf : c.Wf
  depth : DeepOk st c
  lead : c.LeadFor st p l
  follow : Follow p r
  good : g → c.Ok st ∧ inp = c.bytes ++ (l.bytes ++ (tokBytes p ++ r)) ∧ pos = posOf (c.bytes ++ l.bytes)

inductive At (c : Ctx) : St → Prop
  | n {pos : Pos} {r : Bytes} : InvN st inp g c pos r → At c (stp st c pos none r)
  | p {p : Peeked} {l : Lead} {pos : Pos} {r : Bytes} : InvP st inp g c p l pos r → At c (stp st c pos (some p) r)

/-- a string value reader is active -/
def active (c : Ctx) (pos : Pos) (r : Bytes) : St := { stp st c pos none r with stringReaderActive := true }

inductive Inv : Usage.Mode → St → Prop
  | at {c : Ctx} {s : St} : At st inp g c s → Inv c.mode s
  | active {c : Ctx} {l : Lead} {pos : Pos} {r : Bytes} (x y : Bytes) : c.Wf → DeepOk st c → c.Slot l →
      (g → c.Ok st ∧ c.LeadFor st .stringStart l ∧ inp = c.bytes ++ (l.bytes ++ x) ∧ x = 0x22 :: (y ++ r) ∧ pos = posOf (c.bytes ++ (l.bytes ++ 0x22 :: y)) ∧
        ∃ is cs, ItemsAre is cs ∧ y = is.flatMap StrItem.bytes) → Inv { c.mode with str := true } (active st c pos r)

variable (K : Usage.Mode → Prop)

/-- errors which can occur; after an error which is not fatal the reader can still be used -/
def EOk (e : RErr) (s : St) : Prop := match e with
  | .syntax _ _ => True
  | .io .invalidUtf8 _ => True
  | .io (.source _) _ => False
  | .unexpectedValueType _ _ _ => ∃ c, K c.mode ∧ At st inp g c s
  | .unexpectedStructure _ _ => ∃ c, K c.mode ∧ At st inp g c s
  | .maxNestingDepthExceeded _ _ => ∃ c, K c.mode ∧ At st inp g c s
  | .unsupportedNumberValue _ _ => ∃ c, K c.mode ∧ At st inp False c s
  | .panic _ => False
  | .outOfFuel => False

end

theorem frames_stack (c : Ctx) : c.frames.length = c.stack.length := by
  induction c <;> simp [Ctx.frames, Ctx.stack, *]

theorem stack_le_depth (c : Ctx) : c.stack.length ≤ c.depth := by
  cases c with
  | top d => exact Nat.zero_le _
  | arr up l d => simp only [Ctx.stack, Ctx.depth, List.length_cons, ← frames_stack]; omega
  | obj up l d => simp only [Ctx.stack, Ctx.depth, List.length_cons, ← frames_stack]; omega
  | val up l d s n => simp only [Ctx.stack, Ctx.depth, List.length_cons, ← frames_stack]; omega

theorem DeepOk.stack {st : Settings} {c : Ctx} (h : DeepOk st c) : DepthOk st c := fun n hn => Nat.le_trans (stack_le_depth c) (h n hn)

theorem maxDepth_append (a b : List Cst) : maxDepth (a ++ b) = max (maxDepth a) (maxDepth b) := by
  induction a with
  | nil => simp [maxDepth]
  | cons v vs ih => simp only [List.cons_append, maxDepth, ih]; omega

theorem add_depth {c : Ctx} {l : Lead} (v : Cst) (h : c.Slot l) : (c.add l v).depth = max c.depth (c.stack.length + v.depth) := by
  cases c <;> cases l <;> first | exact h.elim | skip
  all_goals simp only [Ctx.add, Ctx.depth, Ctx.stack, List.map_append, List.map_cons, List.map_nil, maxDepth_append, maxDepth, frames_stack, List.length_cons, List.length_nil]; omega

theorem mkItems_depth (cl : Sep) (d : List (Sep × Cst)) : (mkItems cl d).depth = maxDepth (d.map (·.2)) := by
  induction d with
  | nil => rfl
  | cons x xs ih => simp [mkItems, Items.depth, maxDepth, ih]

theorem mkMembers_depth (cl : Sep) (d : List Mem) : (mkMembers cl d).depth = maxDepth (d.map (·.v)) := by
  induction d with
  | nil => rfl
  | cons x xs ih => simp [mkMembers, Members.depth, maxDepth, ih]

/-- number of bytes, where a peeked token counts as one byte -/
def mu (s : St) : Nat := s.src.rest.length + match s.peeked with
  | none => 0
  | some .numberStart => 0
  | some _ => 1

section
variable {st : Settings} {inp : Bytes} {g : Prop} {K : Usage.Mode → Prop} {c : Ctx} {p : Peeked} {l : Lead} {pos : Pos} {r : Bytes} {s : St}

theorem EOk.data {e : RErr} (h : DataErr e) : EOk st inp g K e s := by
  cases e with
  | «syntax» => trivial
  | io e l => cases e with
    | invalidUtf8 => trivial
    | source => exact h.elim
  | _ => exact h.elim

theorem Wp.lo {α : Type} {m : R AbsSrc α} {Q : α → St → Prop} (h : Lo m s Q) : Wp m s Q (EOk st inp g K) := h.mono (fun _ _ h => h) fun _ _ h => EOk.data h

theorem CanPeek.of_ne_top (h : ∀ d, c ≠ .top d) : CanPeek st c := fun d hd => absurd hd (h d)

theorem canPeek_lead (h : c.LeadFor st p l) : CanPeek st c := by
  rintro d rfl
  cases l with
  | ws w => exact h.2.2.1
  | sep => exact h.elim
  | colon => exact h.elim

theorem mu_peek {rest : Bytes} (hf : rest = l.bytes ++ (tokBytes p ++ r)) : mu (stp st c pos (some p) r) ≤ rest.length := by
  subst hf
  unfold mu
  cases p <;> simp [stp, tokBytes, nullBytes, trueBytes, falseBytes] <;> omega

/-- peeking -/
theorem pio_wp {E : RErr → St → Prop} (h : At st inp g c s) (hc : CanPeek st c) (hE : ∀ e s, DataErr e → E e s) :
    Wp peekInternalOptional s (fun o s' =>
      (∃ p l pos r, o = some p ∧ s' = stp st c pos (some p) r ∧ InvP st inp g c p l pos r ∧ mu s' ≤ mu s) ∨
      (o = none ∧ ∃ pos r pos' , s = stp st c pos none r ∧ EofLead st c r ∧ s' = stp st c pos' none [] ∧
        ((∃ d, c = .top d ∧ d ≠ []) → InvN st inp g c pos' []))) E := by
  cases h with
  | p h => exact Wp.of_ok pio_pk (.inl ⟨_, _, _, _, rfl, rfl, h, Nat.le_refl _⟩)
  | @n pos r h =>
    refine (pio_lo hc h.bare).mono ?_ (fun e s => hE e s)
    rintro _ _ (⟨p, l, r, hl, hf, rfl, rfl, rfl⟩ | ⟨he, rfl, rfl⟩)
    · refine .inl ⟨p, l, _, r, rfl, rfl, ⟨h.wf, h.depth, hl, hf, fun hg => ?_⟩, mu_peek rfl⟩
      obtain ⟨h1, ⟨h2, h3⟩ | ⟨h2, _⟩⟩ := h.good hg
      · exact ⟨h1, h2, by rw [h3, posOf_over (Ctx.noCr h1).noSplit]⟩
      · obtain ⟨b, t, hb, _⟩ := tok_head hf
        rw [hb] at h2
        exact absurd h2 (by simp)
    · refine .inr ⟨rfl, pos, r, _, rfl, he, rfl, ?_⟩
      rintro ⟨d, rfl, hd⟩
      refine ⟨h.wf, h.depth, fun _ => nofun, fun hg => ?_⟩
      obtain ⟨t, ht, rfl⟩ := he
      obtain ⟨h1, ⟨h2, h3⟩ | ⟨h2, h3, h4⟩⟩ := h.good hg
      · exact ⟨h1, .inr ⟨rfl, ⟨d, rfl, hd⟩, t, ht, h2, by rw [h3, posOf_over (Ctx.noCr h1).noSplit, h2]⟩⟩
      · refine ⟨h1, .inr ⟨rfl, h3, ?_⟩⟩
        rw [h2]; exact h4

theorem pi_wp (h : At st inp g c s) (hc : CanPeek st c) (hK : K c.mode := by trivial) :
    Wp peekInternal s (fun p s' => ∃ l pos r, s' = stp st c pos (some p) r ∧ InvP st inp g c p l pos r ∧ mu s' ≤ mu s) (EOk st inp g K) := by
  unfold peekInternal
  refine Wp.bind' (pio_wp h hc fun _ _ h => EOk.data h) ?_
  rintro _ _ (⟨p, l, pos, r, rfl, rfl, h, hm⟩ | ⟨rfl, pos, r, pos', rfl, he, rfl, hi⟩)
  · exact Wp.pure ⟨l, pos, r, rfl, h, hm⟩
  · refine Wp.get (Wp.ite (fun h => ?_) fun _ => Wp.of_err rfl trivial)
    refine Wp.of_err rfl ?_
    refine ⟨c, hK, .n (hi ?_)⟩
    cases c with
    | top d => exact ⟨d, rfl, by rintro rfl; exact absurd h (by exact Bool.false_ne_true)⟩
    | arr | obj | val => exact absurd h (by simp [isBehindTopLevel, stp, Ctx.stack])

theorem notEmn_allows (he : c.emn = false) (h : c.Allows p) : isValue p = true ∨ (p = .arrayEnd ∧ ∃ u l d, c = .arr u l d) := by
  cases c with
  | top => exact .inl h
  | arr u l d => exact h.imp id fun h => ⟨h, u, l, d, rfl⟩
  | obj => exact Bool.noConfusion he
  | val => exact .inl h

theorem InvP.inv (h : InvP st inp g c p l pos r) (hK : K c.mode) : ∃ c', K c'.mode ∧ At st inp g c' (stp st c pos (some p) r) := ⟨c, hK, .p h⟩

/-- start of a value -/
theorem sev_wp {β : Type} {t : ValueType} {chk : Bool} {f : Peeked → R AbsSrc β} {Q : β → St → Prop} (h : At st inp g c s) (hc : CanPeek st c) (he : c.emn = false) (hK : K c.mode := by trivial)
    (H : ∀ p l pos r, InvP st inp g c p l pos r → mu (stp st c pos (some p) r) ≤ mu s → isValue p = true → typeOf p = t → (chk = true → tooDeep st c = none) →
      Wp (f p) (stp st c (pos.over (tokBytes p)) none r) Q (EOk st inp g K)) :
    Wp (startExpectedValueType t chk >>= f) s Q (EOk st inp g K) := by
  have key : ∀ {p l pos r}, InvP st inp g c p l pos r → mu (stp st c pos (some p) r) ≤ mu s →
      Wp (startExpectedValueType t chk >>= f) (stp st c pos (some p) r) Q (EOk st inp g K) := by
    intro p l pos r h hm
    rcases notEmn_allows he h.lead.allows with hv | ⟨rfl, _⟩
    · by_cases ht : typeOf p = t
      · cases hd : tooDeep st c with
        | none => exact Wp.bind_ok (sev_ok he hv ht fun _ => hd) (H p l pos r h hm hv ht fun _ => hd)
        | some n =>
          cases chk with
          | false => exact Wp.bind_ok (sev_ok he hv ht Bool.noConfusion) (H p l pos r h hm hv ht Bool.noConfusion)
          | true => exact Wp.of_err (M.bind_err (sev_deep he hv ht hd)) (h.inv hK)
      · exact Wp.of_err (M.bind_err (sev_type he hv ht)) (h.inv hK)
    · exact Wp.of_err (M.bind_err (sev_arrayEnd he)) (h.inv hK)
  have hp := pi_wp h hc (K := K) hK
  have heq : (startExpectedValueType t chk).run s = (peekInternal >>= fun _ => startExpectedValueType t chk).run s := by
    have hs : s.expectsMemberName = false := by cases h <;> exact he
    unfold startExpectedValueType
    rw [run_get, if_neg (by rw [hs]; decide)]
    cases h1 : peekInternal.run s with
    | err e s' => rw [M.bind_err h1, M.bind_err h1]
    | ok p s' =>
      rw [M.bind_ok h1, M.bind_ok h1]
      obtain ⟨l, pos, r, rfl, _, _⟩ := hp.ok h1
      rw [run_get, if_neg (by show ¬ c.emn = true; rw [he]; decide), M.bind_ok pi_pk]
  unfold Wp
  rw [M.run_bind, heq]
  cases h1 : peekInternal.run s with
  | err e s' => rw [M.bind_err h1]; exact hp.err h1
  | ok p s' =>
    rw [M.bind_ok h1]
    obtain ⟨l, pos, r, rfl, h2, h3⟩ := hp.ok h1
    have := key h2 h3
    unfold Wp at this
    rw [M.run_bind] at this
    exact this

theorem bytes_noSplit {a bs : Bytes} {r : Bytes} (hf : Follow p r) {r2 : Bytes} (h : bs ++ r2 = tokBytes p ++ r) (hn : bs ≠ []) : NoSplit a bs := by
  obtain ⟨b, t, hb, hs, _⟩ := tok_head hf
  obtain ⟨b', t', rfl⟩ := List.exists_cons_of_ne_nil hn
  rw [hb] at h
  cases h
  refine noSplit_cons ?_
  rintro rfl
  revert hs
  unfold TokStart isSp
  decide

/-- a value has been consumed -/
theorem InvP.add {v : Cst} {r2 : Bytes} (h : InvP st inp g c p l pos r) (hp : isValue p = true) (hv : v.Ok (cfgOf st)) (hb : tokBytes p ++ r = v.bytes ++ r2)
    (hs : v.isBare = true → SepOk r2) (hd : v.depth = 0 := by rfl) : InvX st inp g (c.add l v) (pos.over v.bytes) r2 := by
  have hsl := h.lead.slot hp
  have he : g → inp = (c.add l v).bytes ++ r2 ∧ pos.over v.bytes = posOf (c.add l v).bytes := by
    intro hg
    obtain ⟨h1, h2, h3⟩ := h.good hg
    constructor
    · rw [Ctx.add_bytes hsl, h2, hb]; simp
    · rw [h3, posOf_over (bytes_noSplit h.follow hb.symm (Cst.noCr hv).2), Ctx.add_bytes hsl]; simp
  refine ⟨⟨Ctx.add_wf h.wf, ?_, ?_, fun hg => ⟨(h.good hg).1.add h.lead hp hv, .inl (he hg)⟩⟩, he⟩
  · intro n hn
    rw [add_depth v hsl, hd]
    exact Nat.max_le.2 ⟨h.depth n hn, h.depth.stack n hn⟩
  · intro hbd
    rw [Ctx.add_lastBare hsl] at hbd
    exact hs hbd

/-! ## Simple values -/

theorem typeOf_null (hv : isValue p = true) (h : typeOf p = .null) : p = .null := by cases p <;> first | rfl | cases h
theorem typeOf_string (hv : isValue p = true) (h : typeOf p = .string) : p = .stringStart := by cases p <;> first | rfl | cases h
theorem typeOf_number (hv : isValue p = true) (h : typeOf p = .number) : p = .numberStart := by cases p <;> first | rfl | cases h
theorem typeOf_object (hv : isValue p = true) (h : typeOf p = .object) : p = .objectStart := by cases p <;> first | rfl | cases h
theorem typeOf_array (hv : isValue p = true) (h : typeOf p = .array) : p = .arrayStart := by
  cases p <;> first | rfl | exact absurd hv (by decide) | exact absurd h (by decide)
theorem typeOf_bool (hv : isValue p = true) (h : typeOf p = .boolean) : p = .booleanTrue ∨ p = .booleanFalse := by
  cases p <;> first | exact .inl rfl | exact .inr rfl | cases h

/-- post condition for a consumed value -/
def VPost (st : Settings) (inp : Bytes) (g : Prop) (c : Ctx) (s : St) (v : Cst) (s' : St) : Prop :=
  ∃ l pos r, c.Slot l ∧ s' = stp st (c.add l v) pos none r ∧ InvX st inp g (c.add l v) pos r ∧ mu s' < mu s

theorem mu_stp_none : mu (stp st c pos none r) = r.length := rfl
theorem mu_stp_num : mu (stp st c pos (some .numberStart) r) = r.length := rfl
theorem mu_stp_tok (h : p ≠ .numberStart) : mu (stp st c pos (some p) r) = r.length + 1 := by
  cases p <;> first | rfl | exact absurd rfl h

theorem nextNull_wp (h : At st inp g c s) (hc : CanPeek st c) (he : c.emn = false) (hK : K c.mode := by trivial) :
    Wp nextNull s (fun _ s' => VPost st inp g c s .null s') (EOk st inp g K) := by
  unfold nextNull
  refine sev_wp h hc he hK ?_
  intro p l pos r hP hm hv ht _
  cases typeOf_null hv ht
  have hsl := hP.lead.slot hv
  refine Wp.of_ok (onValueEnd_run0 (v := .null) hsl) ⟨l, _, r, hsl, rfl, hP.add hv trivial rfl fun _ => hP.follow, ?_⟩
  rw [mu_stp_none]
  rw [mu_stp_tok (by decide)] at hm
  omega

theorem nextBool_wp (h : At st inp g c s) (hc : CanPeek st c) (he : c.emn = false) (hK : K c.mode := by trivial) :
    Wp nextBool s (fun b s' => VPost st inp g c s (.bool b) s') (EOk st inp g K) := by
  unfold nextBool
  refine sev_wp h hc he hK ?_
  intro p l pos r hP hm hv ht _
  have hsl := hP.lead.slot hv
  rcases typeOf_bool hv ht with rfl | rfl
  · refine Wp.bind_ok (a := true) rfl ?_
    refine Wp.bind_ok (onValueEnd_run0 (v := .bool true) hsl) (Wp.pure ⟨l, _, r, hsl, rfl, hP.add hv trivial rfl fun _ => hP.follow, ?_⟩)
    rw [mu_stp_none]
    rw [mu_stp_tok (by decide)] at hm
    omega
  · refine Wp.bind_ok (a := false) rfl ?_
    refine Wp.bind_ok (onValueEnd_run0 (v := .bool false) hsl) (Wp.pure ⟨l, _, r, hsl, rfl, hP.add hv trivial rfl fun _ => hP.follow, ?_⟩)
    rw [mu_stp_none]
    rw [mu_stp_tok (by decide)] at hm
    omega

/-! ## Strings -/

theorem str_tok {x : Str} : tokBytes .stringStart ++ (x.body ++ 0x22 :: r) = x.bytes ++ r := by simp [tokBytes, Str.bytes]

theorem str_post {x : Str} (hP : InvP st inp g c .stringStart l pos (x.body ++ 0x22 :: r)) (hm : mu (stp st c pos (some .stringStart) (x.body ++ 0x22 :: r)) ≤ mu s) (hx : x.Ok) :
    VPost st inp g c s (.str x) (stp st (c.add l (.str x)) (pos.over x.bytes) none r) := by
  refine ⟨l, _, r, hP.lead.slot rfl, rfl, hP.add rfl hx str_tok Bool.noConfusion, ?_⟩
  rw [mu_stp_none]
  rw [mu_stp_tok (by decide)] at hm
  simp only [List.length_append, List.length_cons] at hm
  omega

theorem nextString_wp (h : At st inp g c s) (hc : CanPeek st c) (he : c.emn = false) (hK : K c.mode := by trivial) :
    Wp nextString s (fun t s' => ∃ x : Str, x.Ok ∧ t = x.text ∧ VPost st inp g c s (.str x) s') (EOk st inp g K) := by
  unfold nextString
  refine sev_wp h hc he hK ?_
  intro p l pos r hP hm hv ht _
  cases typeOf_string hv ht
  refine Wp.bind' (Wp.lo (readString_lo rfl false)) ?_
  rintro _ _ ⟨x, r', hx, hr, rfl⟩
  cases (show r = x.body ++ 0x22 :: r' from hr)
  refine Wp.bind_ok (getString_run rfl) ?_
  rw [mv_stp, setAcc_setAcc, tok_str, over_str pos hx]
  exact Wp.bind_ok (onValueEnd_run0 (v := .str x) (hP.lead.slot rfl)) (Wp.pure ⟨x, hx, rfl, str_post hP hm hx⟩)

theorem nextStr_wp (h : At st inp g c s) (hc : CanPeek st c) (he : c.emn = false) (hK : K c.mode := by trivial) :
    Wp nextStr s (fun t s' => ∃ x : Str, x.Ok ∧ t = x.text ∧ VPost st inp g c s (.str x) s') (EOk st inp g K) := by
  unfold nextStr
  refine sev_wp h hc he hK ?_
  intro p l pos r hP hm hv ht _
  cases typeOf_string hv ht
  refine Wp.bind' (Wp.lo (readString_lo rfl true)) ?_
  rintro _ _ ⟨x, r', hx, hr, rfl⟩
  cases (show r = x.body ++ 0x22 :: r' from hr)
  rw [mv_stp, tok_str, over_str pos hx]
  refine Wp.bind_ok (onValueEnd_run (v := .str x) (hP.lead.slot rfl)) ?_
  exact Wp.of_ok (getStr_run rfl) ⟨x, hx, rfl, str_post hP hm hx⟩

theorem skipString_wp {β : Type} {f : Unit → R AbsSrc β} {Q : β → St → Prop} (h : At st inp g c s) (hc : CanPeek st c) (he : c.emn = false) (hK : K c.mode := by trivial)
    (H : ∀ (x : Str) s', x.Ok → VPost st inp g c s (.str x) s' → Wp (f ()) s' Q (EOk st inp g K)) :
    Wp (do let _ ← startExpectedValueType .string false; skipAllStringBytes; onValueEnd; f () : R AbsSrc β) s Q (EOk st inp g K) := by
  refine sev_wp h hc he hK ?_
  intro p l pos r hP hm hv ht _
  cases typeOf_string hv ht
  refine Wp.bind' (Wp.lo (skipAll_lo rfl)) ?_
  rintro _ _ ⟨x, r', hx, hr, rfl⟩
  cases (show r = x.body ++ 0x22 :: r' from hr)
  rw [mv_stp, tok_str, over_str pos hx]
  exact Wp.bind_ok (onValueEnd_run0 (v := .str x) (hP.lead.slot rfl)) (H x _ hx (str_post hP hm hx))

/-! ## Numbers -/

theorem num_post {bs : Bytes} (hP : InvP st inp g c .numberStart l pos (bs ++ r)) (hm : mu (stp st c pos (some .numberStart) (bs ++ r)) ≤ mu s) (hn : IsNumber bs) (hs : SepOk r) :
    VPost st inp g c s (.num bs) (stp st (c.add l (.num bs)) (pos.over bs) none r) := by
  refine ⟨l, _, r, hP.lead.slot rfl, rfl, hP.add rfl hn rfl fun _ => hs, ?_⟩
  rw [mu_stp_none]
  rw [mu_stp_num] at hm
  have := List.length_pos_iff.2 (isNumber_ne_nil hn)
  simp only [List.length_append] at hm
  omega

/-- the context with other values -/
def Ctx.blunt : Ctx → Ctx
  | .top d => .top (d.map fun x => (x.1, .str ⟨[], []⟩))
  | .arr u l d => .arr u l (d.map fun x => (x.1, .str ⟨[], []⟩))
  | .obj u l d => .obj u l (d.map fun x => { x with v := .str ⟨[], []⟩ })
  | .val u l d s n => .val u l d s n

theorem Ctx.blunt_mode : c.blunt.mode = c.mode := by
  cases c <;> simp [Ctx.blunt, Ctx.mode, Ctx.frames, Ctx.root]

theorem Ctx.blunt_stp {pk : Option Peeked} : stp st c pos pk r = stp st c.blunt pos pk r := by
  cases c <;> simp [Ctx.blunt, stp, Ctx.isEmpty, Ctx.emn, Ctx.stack, Ctx.path, lastName]
  rfl

theorem Ctx.blunt_lastBare : c.blunt.lastBare = false := by
  cases c with
  | top d => simp only [Ctx.blunt, Ctx.lastBare, bareLast, List.getLast?_map]; cases d.getLast? <;> rfl
  | arr u l d => simp only [Ctx.blunt, Ctx.lastBare, List.getLast?_map]; cases d.getLast? <;> rfl
  | obj u l d => simp only [Ctx.blunt, Ctx.lastBare, List.getLast?_map]; cases d.getLast? <;> rfl
  | val => rfl

theorem Ctx.blunt_depth : c.blunt.depth ≤ c.depth := by
  have h : ∀ l : List Cst, maxDepth (l.map fun _ => Cst.str ⟨[], []⟩) = 0 := by
    intro l
    induction l with
    | nil => rfl
    | cons v vs ih => simp [maxDepth, ih, Cst.depth]
  cases c with
  | top d =>
    have := h (d.map (·.2))
    simp only [Ctx.blunt, Ctx.depth, List.map_map, Function.comp_def] at this ⊢
    omega
  | arr u l d =>
    have := h (d.map (·.2))
    simp only [Ctx.blunt, Ctx.depth, List.map_map, Function.comp_def] at this ⊢
    omega
  | obj u l d =>
    have := h (d.map (·.v))
    simp only [Ctx.blunt, Ctx.depth, List.map_map, Function.comp_def] at this ⊢
    omega
  | val => exact Nat.le_refl _

/-- after a rejected number; the consumed values are replaced such that the state says nothing about the following byte -/
theorem weak_inv (h : InvP st inp g c p l pos r) {r2 : Bytes} {pos2 : Pos} (hK : K c.mode) : ∃ c', K c'.mode ∧ At st inp False c' (stp st c pos2 none r2) := by
  refine ⟨c.blunt, by rw [Ctx.blunt_mode]; exact hK, ?_⟩
  rw [Ctx.blunt_stp]
  refine .n ⟨?_, ?_, fun h => ?_, False.elim⟩
  · have := h.wf
    cases c <;> exact this
  · intro n hn
    exact Nat.le_trans Ctx.blunt_depth (h.depth n hn)
  · rw [Ctx.blunt_lastBare] at h; cases h

theorem finishNumber_wp {bs a : Bytes} (hP : InvP st inp g c .numberStart l pos (bs ++ r)) (hm : mu (stp st c pos (some .numberStart) (bs ++ r)) ≤ mu s) (hn : IsNumber bs) :
    Wp (finishNumber bs.length) (setAcc (stp st c pos none r) a) (fun _ s' => ∃ s'', s' = setAcc s'' a ∧ VPost st inp g c s (.num bs) s'') (EOk st inp g K) := by
  unfold finishNumber
  refine Wp.bind_ok (advance_plain _ (isNumber_plain hn) rfl) ?_
  refine Wp.bind (Wp.lo (verifyValueSeparator_lo rfl fun h => ?_))
  exact Wp.of_ok (onValueEnd_run (v := .num bs) (a := a) (hP.lead.slot rfl)) ⟨_, rfl, num_post hP hm hn h⟩

theorem readNumber_wp {rq : Bool} (h : At st inp g c s) (hc : CanPeek st c) (he : c.emn = false) (hK : K c.mode := by trivial) :
    Wp (readNumberBytes rq) s (fun _ s' => ∃ bs s'', IsNumber bs ∧ ¬ Restricted st bs ∧ s' = setAcc s'' bs ∧ VPost st inp g c s (.num bs) s'') (EOk st inp g K) := by
  unfold readNumberBytes
  refine sev_wp h hc he hK ?_
  intro p l pos r hP hm hv ht _
  cases typeOf_number hv ht
  obtain ⟨b, t, rfl, hb⟩ := hP.follow
  refine Wp.bind' (Wp.lo (collectNumber_lo rfl rfl)) ?_
  rintro ⟨k, n⟩ _ ⟨bs, r', hk, hr, rfl, rfl⟩
  have hr : b :: t = bs ++ r' := hr
  rw [hr] at hP hm
  dsimp only
  have hn := hk.isNumber
  refine Wp.get (Wp.ite (fun hres => ?_) fun hres => ?_)
  · refine Wp.bind_ok (a := ()) rfl ?_
    refine Wp.bind_ok (getString_run (cs := asciiText bs) (asciiText_enc (isNumber_plain hn)).symm) ?_
    exact Wp.get (Wp.of_err rfl (weak_inv hP hK))
  · refine Wp.bind_ok (a := ()) (s' := setAcc (stp st c pos none r') bs) rfl ?_
    refine (finishNumber_wp hP hm hn).post ?_
    rintro _ _ ⟨s'', rfl, h⟩
    refine ⟨bs, s'', hn, ?_, rfl, h⟩
    rintro ⟨h1, h2⟩
    refine hres ?_
    simp only [Bool.and_eq_true, Bool.or_eq_true, decide_eq_true_eq]
    refine ⟨h1, h2.symm.imp ?_ id⟩
    rintro ⟨k', hk', h⟩
    have e : k = k' := hk.unique hk'
    exact e ▸ h

theorem VPost.acc {v : Cst} {s' : St} (h : VPost st inp g c s v s') : setAcc s' [] = s' := by
  obtain ⟨l, pos, r, _, rfl, _⟩ := h
  rfl

theorem nextNumberAsString_wp (h : At st inp g c s) (hc : CanPeek st c) (he : c.emn = false) (hK : K c.mode := by trivial) :
    Wp nextNumberAsString s (fun t s' => ∃ bs, IsNumber bs ∧ t = asciiText bs ∧ ¬ Restricted st bs ∧ VPost st inp g c s (.num bs) s') (EOk st inp g K) := by
  unfold nextNumberAsString
  refine Wp.bind' (readNumber_wp h hc he hK) ?_
  rintro _ _ ⟨bs, s'', hn, hres, rfl, hv⟩
  refine Wp.of_ok (getString_run (cs := asciiText bs) (asciiText_enc (isNumber_plain hn)).symm) ⟨bs, hn, rfl, hres, ?_⟩
  rw [setAcc_setAcc, hv.acc]
  exact hv

theorem nextNumberAsStr_wp (h : At st inp g c s) (hc : CanPeek st c) (he : c.emn = false) (hK : K c.mode := by trivial) :
    Wp nextNumberAsStr s (fun t s' => ∃ bs, IsNumber bs ∧ t = asciiText bs ∧ ¬ Restricted st bs ∧ VPost st inp g c s (.num bs) s') (EOk st inp g K) := by
  unfold nextNumberAsStr
  refine Wp.bind' (readNumber_wp h hc he hK) ?_
  rintro _ _ ⟨bs, s'', hn, hres, rfl, hv⟩
  refine Wp.of_ok (getStr_run (cs := asciiText bs) (asciiText_enc (isNumber_plain hn)).symm) ⟨bs, hn, rfl, hres, ?_⟩
  rw [setAcc_setAcc, hv.acc]
  exact hv

theorem skipNumber_wp (h : At st inp g c s) (hc : CanPeek st c) (he : c.emn = false) (hK : K c.mode := by trivial) :
    Wp skipNumber s (fun _ s' => ∃ bs, IsNumber bs ∧ VPost st inp g c s (.num bs) s') (EOk st inp g K) := by
  unfold skipNumber
  refine sev_wp h hc he hK ?_
  intro p l pos r hP hm hv ht _
  cases typeOf_number hv ht
  obtain ⟨b, t, rfl, hb⟩ := hP.follow
  refine Wp.bind' (Wp.lo (skipNumberBytes_lo rfl rfl)) ?_
  rintro ⟨k, n⟩ _ ⟨bs, r', hk, hr, rfl, rfl⟩
  have hr : b :: t = bs ++ r' := hr
  rw [hr] at hP hm
  dsimp only
  refine (finishNumber_wp (a := []) hP hm hk.isNumber).post ?_
  rintro _ _ ⟨s'', rfl, h⟩
  refine ⟨bs, hk.isNumber, ?_⟩
  rw [h.acc]; exact h

/-! ## Arrays and objects -/

theorem beginArray_wp (h : At st inp g c s) (hc : CanPeek st c) (he : c.emn = false) (hK : K c.mode := by trivial) :
    Wp beginArray s (fun _ s' => ∃ l pos r, s' = stp st (.arr c l []) pos none r ∧ InvN st inp g (.arr c l []) pos r ∧ mu s' < mu s) (EOk st inp g K) := by
  unfold beginArray onContainerStart
  refine Wp.bind (sev_wp h hc he hK ?_)
  intro p l pos r hP hm hv ht hd
  cases typeOf_array hv ht
  refine Wp.modify (Wp.modify ⟨l, pos.over [0x5B], r, ?_, ⟨⟨hP.lead.slot rfl, hP.wf⟩, ?_, Bool.noConfusion, fun hg => ?_⟩, ?_⟩)
  · simp only [stp, Ctx.stack, Ctx.isEmpty, Ctx.emn, Ctx.path, List.isEmpty_nil]
    rcases st.trackPath with _ | _ <;> rfl
  · intro n hn
    have := hd rfl
    unfold tooDeep at this
    rw [hn] at this
    dsimp only at this
    split at this
    · cases this
    · have h1 := hP.depth n hn
      show max c.depth (c.frames.length + 1 + 0) ≤ n
      rw [frames_stack]
      omega
  · obtain ⟨h1, h2, h3⟩ := hP.good hg
    refine ⟨⟨h1, hP.lead, trivial⟩, .inl ⟨?_, ?_⟩⟩
    · rw [h2]; simp [Ctx.bytes, tokBytes]
    · rw [h3, posOf_over (noSplit_cons (by decide))]; simp [Ctx.bytes]
  · rw [mu_stp_tok (by decide)] at hm
    exact Nat.lt_of_lt_of_le (Nat.lt_succ_self _) hm

theorem beginObject_wp (h : At st inp g c s) (hc : CanPeek st c) (he : c.emn = false) (hK : K c.mode := by trivial) :
    Wp beginObject s (fun _ s' => ∃ l pos r, s' = stp st (.obj c l []) pos none r ∧ InvN st inp g (.obj c l []) pos r ∧ mu s' < mu s) (EOk st inp g K) := by
  unfold beginObject onContainerStart
  refine Wp.bind (sev_wp h hc he hK ?_)
  intro p l pos r hP hm hv ht hd
  cases typeOf_object hv ht
  refine Wp.modify (Wp.modify ⟨l, pos.over [0x7B], r, ?_, ⟨⟨hP.lead.slot rfl, hP.wf⟩, ?_, Bool.noConfusion, fun hg => ?_⟩, ?_⟩)
  · simp only [stp, Ctx.stack, Ctx.isEmpty, Ctx.emn, Ctx.path, List.isEmpty_nil]
    rcases st.trackPath with _ | _ <;> rfl
  · intro n hn
    have := hd rfl
    unfold tooDeep at this
    rw [hn] at this
    dsimp only at this
    split at this
    · cases this
    · have h1 := hP.depth n hn
      show max c.depth (c.frames.length + 1 + 0) ≤ n
      rw [frames_stack]
      omega
  · obtain ⟨h1, h2, h3⟩ := hP.good hg
    refine ⟨⟨h1, hP.lead, trivial⟩, .inl ⟨?_, ?_⟩⟩
    · rw [h2]; simp [Ctx.bytes, tokBytes]
    · rw [h3, posOf_over (noSplit_cons (by decide))]; simp [Ctx.bytes]
  · rw [mu_stp_tok (by decide)] at hm
    exact Nat.lt_of_lt_of_le (Nat.lt_succ_self _) hm

/-- an array or object has been closed; `v` is the closed value in the good case -/
theorem close_inv {up : Ctx} {lu : Lead} {v : Cst} {b : UInt8} {q : Peeked} (hwf : up.Wf) (hs : up.Slot lu) (hd : ∀ n, st.maxNestingDepth = some n → max up.depth (up.stack.length + v.depth) ≤ n) (hb : v.isBare = false) (hb1 : b ≠ 0x0A) (hq : isValue q = true)
    (hg : g → up.Ok st ∧ up.LeadFor st q lu ∧ v.Ok (cfgOf st) ∧ inp = up.bytes ++ (lu.bytes ++ (v.bytes ++ r)) ∧ ∃ x, v.bytes = x ++ [b] ∧ pos = posOf (up.bytes ++ (lu.bytes ++ x))) :
    InvX st inp g (up.add lu v) (pos.over [b]) r := by
  have he : g → inp = (up.add lu v).bytes ++ r ∧ pos.over [b] = posOf (up.add lu v).bytes := by
    intro h
    obtain ⟨h1, h2, h3, h4, x, h5, h6⟩ := hg h
    constructor
    · rw [Ctx.add_bytes hs, h4]; simp
    · rw [h6, posOf_over (noSplit_cons hb1), Ctx.add_bytes hs, h5]; simp
  refine ⟨⟨Ctx.add_wf hwf, ?_, ?_, fun h => ⟨(hg h).1.add (hg h).2.1 hq (hg h).2.2.1, .inl (he h)⟩⟩, he⟩
  · intro n hn
    rw [add_depth v hs]
    exact hd n hn
  · intro hbd
    rw [Ctx.add_lastBare hs, hb] at hbd
    exact Bool.noConfusion hbd

theorem endArray_wp {up : Ctx} {lu : Lead} {d : List (Sep × Cst)} (h : At st inp g (.arr up lu d) s) (hK : K (Ctx.arr up lu d).mode := by trivial) :
    Wp endArray s (fun _ s' => ∃ cl pos r, up.Slot lu ∧ s' = stp st (up.add lu (.arr (mkItems cl d))) pos none r ∧
      InvX st inp g (up.add lu (.arr (mkItems cl d))) pos r ∧ mu s' < mu s) (EOk st inp g K) := by
  unfold endArray
  refine Wp.get ?_
  rw [if_neg (by cases h <;> exact Bool.false_ne_true)]
  refine Wp.bind' (pi_wp h (CanPeek.of_ne_top (by rintro _ ⟨⟩)) hK) ?_
  rintro p _ ⟨l, pos, r, rfl, hP, hm⟩
  refine Wp.ite (fun _ => Wp.of_err rfl (hP.inv hK)) fun hp => ?_
  have hp : p = .arrayEnd := by simpa using hp
  subst hp
  obtain ⟨cl, rfl, hl⟩ : ∃ cl, l = .sep cl ∧ cl.OkEnd (cfgOf st) d.isEmpty := by
    have := hP.lead
    cases l with
    | sep cl =>
      rcases this with ⟨_, h⟩ | ⟨h, _⟩
      · exact ⟨cl, rfl, h⟩
      · exact absurd h (by decide)
    | ws => exact this.elim
    | colon => exact this.elim
  refine Wp.bind_ok consumePeeked_run ?_
  refine Wp.of_ok (onContainerEnd_arr (v := .arr (mkItems cl d)) hP.wf.1) ⟨cl, _, r, hP.wf.1, rfl, ?_, ?_⟩
  · refine close_inv (q := .arrayStart) hP.wf.2 hP.wf.1 (fun n hn => by have := hP.depth n hn; simp only [Ctx.depth, Cst.depth, mkItems_depth, frames_stack] at this ⊢; omega) rfl (by decide) rfl fun hg => ?_
    obtain ⟨⟨h1, h2, h3⟩, h4, h5⟩ := hP.good hg
    refine ⟨h1, h2, mkItems_ok h3 (by simpa using hl), ?_, 0x5B :: (d.flatMap itemBytes ++ cl.bytes), ?_, ?_⟩
    · rw [h4]; simp [Ctx.bytes, Cst.bytes, mkItems_bytes, tokBytes, Lead.bytes]
    · simp [Cst.bytes, mkItems_bytes]
    · rw [h5]; simp [Ctx.bytes, Lead.bytes]
  · rw [mu_stp_tok (by decide)] at hm
    rw [mu_stp_none]
    omega

theorem endObject_wp {up : Ctx} {lu : Lead} {d : List Mem} (h : At st inp g (.obj up lu d) s) (hK : K (Ctx.obj up lu d).mode := by trivial) :
    Wp endObject s (fun _ s' => ∃ cl pos r, up.Slot lu ∧ s' = stp st (up.add lu (.obj (mkMembers cl d))) pos none r ∧
      InvX st inp g (up.add lu (.obj (mkMembers cl d))) pos r ∧ mu s' < mu s) (EOk st inp g K) := by
  unfold endObject
  refine Wp.get ?_
  rw [if_neg (by cases h <;> exact Bool.false_ne_true), if_neg (by cases h <;> exact Bool.false_ne_true)]
  refine Wp.bind' (pi_wp h (CanPeek.of_ne_top (by rintro _ ⟨⟩)) hK) ?_
  rintro p _ ⟨l, pos, r, rfl, hP, hm⟩
  refine Wp.ite (fun _ => Wp.of_err rfl (hP.inv hK)) fun hp => ?_
  have hp : p = .objectEnd := by simpa using hp
  subst hp
  obtain ⟨cl, rfl, hl⟩ : ∃ cl, l = .sep cl ∧ cl.OkEnd (cfgOf st) d.isEmpty := by
    have := hP.lead
    cases l with
    | sep cl =>
      rcases this with ⟨_, h⟩ | ⟨h, _⟩
      · exact ⟨cl, rfl, h⟩
      · exact absurd h (by decide)
    | ws => exact this.elim
    | colon => exact this.elim
  refine Wp.bind_ok consumePeeked_run (Wp.bind_ok (a := ()) rfl ?_)
  refine Wp.of_ok (onContainerEnd_obj (v := .obj (mkMembers cl d)) hP.wf.1) ⟨cl, _, r, hP.wf.1, rfl, ?_, ?_⟩
  · refine close_inv (q := .objectStart) hP.wf.2 hP.wf.1 (fun n hn => by have := hP.depth n hn; simp only [Ctx.depth, Cst.depth, mkMembers_depth, frames_stack] at this ⊢; omega) rfl (by decide) rfl fun hg => ?_
    obtain ⟨⟨h1, h2, h3⟩, h4, h5⟩ := hP.good hg
    refine ⟨h1, h2, mkMembers_ok h3 (by simpa using hl), ?_, 0x7B :: (d.flatMap Mem.bytes ++ cl.bytes), ?_, ?_⟩
    · rw [h4]; simp [Ctx.bytes, Cst.bytes, mkMembers_bytes, tokBytes, Lead.bytes]
    · simp [Cst.bytes, mkMembers_bytes]
    · rw [h5]; simp [Ctx.bytes, Lead.bytes]
  · rw [mu_stp_tok (by decide)] at hm
    rw [mu_stp_none]
    omega

/-! ## `peek` and `has_next` -/

theorem peek_wp (h : At st inp g c s) (hc : CanPeek st c) (he : c.emn = false) (hK : K c.mode := by trivial) :
    Wp peek s (fun t s' => ∃ p l pos r, isValue p = true ∧ t = typeOf p ∧ s' = stp st c pos (some p) r ∧ InvP st inp g c p l pos r ∧ mu s' ≤ mu s) (EOk st inp g K) := by
  unfold peek
  refine Wp.get ?_
  rw [if_neg (by cases h <;> (show ¬ c.emn = true; rw [he]; decide))]
  refine Wp.bind' (pi_wp h hc hK) ?_
  rintro p _ ⟨l, pos, r, rfl, hP, hm⟩
  rcases notEmn_allows he hP.lead.allows with hv | ⟨rfl, _⟩
  · exact Wp.of_ok (mapPeeked_value hv) ⟨p, l, pos, r, hv, rfl, rfl, hP, hm⟩
  · exact Wp.of_err rfl (hP.inv hK)

/-- post condition of `has_next` if the result is `true`, or `false` inside of an array or object -/
def HPost (st : Settings) (inp : Bytes) (g : Prop) (c : Ctx) (s : St) (b : Bool) (s' : St) : Prop :=
  ∃ p l pos r, b = !isEnd p ∧ s' = stp st c pos (some p) r ∧ InvP st inp g c p l pos r ∧ mu s' ≤ mu s

/-- not directly behind a member name -/
def Ctx.isVal : Ctx → Bool
  | .val _ _ _ _ _ => true
  | _ => false

def Ctx.isTop : Ctx → Bool
  | .top _ => true
  | _ => false

theorem hasNext_wp (h : At st inp g c s) (hv : c.isVal = false) (ht : c.isTop = false) (hK : K c.mode := by trivial) :
    Wp hasNext s (fun b s' => HPost st inp g c s b s') (EOk st inp g K) := by
  unfold hasNext
  refine Wp.get ?_
  have hne : s.stack.isEmpty = false := by
    cases h <;> (cases c <;> first | rfl | exact Bool.noConfusion ht)
  rw [if_neg (by cases h <;> (cases c <;> first | exact Bool.noConfusion hv | exact Bool.noConfusion ht | exact Bool.false_ne_true)), if_neg (by rw [hne]; decide)]
  refine Wp.bind (Wp.bind' (pi_wp h (CanPeek.of_ne_top (by rintro _ rfl; exact Bool.noConfusion ht)) hK) ?_)
  rintro p _ ⟨l, pos, r, rfl, hP, hm⟩
  refine Wp.pure ?_
  dsimp only
  refine Wp.get ?_
  rw [if_neg]
  · exact Wp.pure ⟨p, l, pos, r, by cases p <;> rfl, rfl, hP, hm⟩
  · have := hP.lead.allows
    cases c with
    | top => exact Bool.noConfusion ht
    | val => exact Bool.noConfusion hv
    | arr => exact Bool.false_ne_true
    | obj => rcases this with rfl | rfl <;> exact Bool.false_ne_true

theorem hasNext_top_wp {d : List (Ws × Cst)} (h : At st inp g (.top d) s) (hd : d ≠ []) (hm : st.allowMultipleTopLevel = true) :
    Wp hasNext s (fun b s' => (b = true ∧ HPost st inp g (.top d) s b s') ∨
      (b = false ∧ ∃ pos r pos', s = stp st (.top d) pos none r ∧ EofLead st (.top d) r ∧ s' = stp st (.top d) pos' none [] ∧ InvN st inp g (.top d) pos' [])) (EOk st inp g K) := by
  unfold hasNext
  refine Wp.get ?_
  have hne : s.isEmpty = false := by cases h <;> simpa [stp, Ctx.isEmpty] using hd
  have hmm : s.settings.allowMultipleTopLevel = true := by cases h <;> exact hm
  rw [if_neg (by cases h <;> exact Bool.false_ne_true), if_pos (by cases h <;> rfl), if_neg (by rw [hne]; decide), if_neg (by rw [hmm]; decide)]
  refine Wp.bind' (pio_wp h (fun _ _ => .inr hm) fun _ _ => EOk.data) ?_
  rintro _ _ (⟨p, l, pos, r, rfl, rfl, hP, hm⟩ | ⟨rfl, pos, r, pos', rfl, he, rfl, hi⟩)
  · dsimp only
    refine Wp.get ?_
    rw [if_neg (by exact Bool.false_ne_true)]
    have hv : isValue p = true := hP.lead.allows
    refine Wp.pure (.inl ⟨?_, p, l, pos, r, by cases p <;> rfl, rfl, hP, hm⟩)
    cases p <;> first | rfl | exact absurd hv (by decide)
  · exact Wp.pure (.inr ⟨rfl, pos, r, pos', rfl, he, rfl, hi ⟨d, rfl, hd⟩⟩)

/-! ## Names -/

/-- post condition for a consumed name -/
def NPost (st : Settings) (inp : Bytes) (g : Prop) (up : Ctx) (lu : Lead) (d : List Mem) (s : St) (x : Str) (s' : St) : Prop :=
  x.Ok ∧ ∃ sp pos r, s' = stp st (.val up lu d sp x) pos none r ∧ InvN st inp g (.val up lu d sp x) pos r ∧ mu s' < mu s

theorem name_post {up : Ctx} {lu : Lead} {d : List Mem} {x : Str} (hP : InvP st inp g (.obj up lu d) .nameStart l pos (x.body ++ 0x22 :: r))
    (hm : mu (stp st (.obj up lu d) pos (some .nameStart) (x.body ++ 0x22 :: r)) ≤ mu s) (hx : x.Ok) :
    ∃ sp, l = .sep sp ∧ NPost st inp g up lu d s x (stp st (.val up lu d sp x) (pos.over x.bytes) none r) := by
  obtain ⟨sp, rfl, hsp⟩ : ∃ sp, l = .sep sp ∧ sp.Ok (cfgOf st) d.isEmpty := by
    have := hP.lead
    cases l with
    | sep sp =>
      rcases this with ⟨h, _⟩ | ⟨_, h⟩
      · cases h
      · exact ⟨sp, rfl, h⟩
    | ws => exact this.elim
    | colon => exact this.elim
  refine ⟨sp, rfl, hx, sp, _, r, rfl, ⟨hP.wf, hP.depth, Bool.noConfusion, fun hg => ?_⟩, ?_⟩
  · obtain ⟨⟨h1, h2, h3⟩, h4, h5⟩ := hP.good hg
    refine ⟨⟨h1, h2, h3, hsp, hx⟩, .inl ⟨?_, ?_⟩⟩
    · rw [h4]; simp [Ctx.bytes, Lead.bytes, tokBytes, Str.bytes]
    · have hns : ∀ a, NoSplit a x.bytes := fun a => noSplit_cons (by decide)
      rw [h5, posOf_over (hns _)]; simp [Ctx.bytes, Lead.bytes]
  · rw [mu_stp_none]
    rw [mu_stp_tok (by decide)] at hm
    simp only [List.length_append, List.length_cons] at hm
    omega

theorem beforeName_wp {up : Ctx} {lu : Lead} {d : List Mem} {β : Type} {f : Unit → R AbsSrc β} {Q : β → St → Prop} (h : At st inp g (.obj up lu d) s) (hK : K (Ctx.obj up lu d).mode := by trivial)
    (H : ∀ l pos r, InvP st inp g (.obj up lu d) .nameStart l pos r → mu (stp st (.obj up lu d) pos (some .nameStart) r) ≤ mu s →
      Wp (f ()) (nameState st up lu d (pos.over [0x22]) r) Q (EOk st inp g K)) :
    Wp (beforeName >>= f) s Q (EOk st inp g K) := by
  refine Wp.bind ?_
  unfold beforeName
  refine Wp.get ?_
  rw [if_neg (by cases h <;> exact Bool.false_ne_true), if_neg (by cases h <;> exact Bool.false_ne_true)]
  refine Wp.bind' (hasNext_wp h rfl rfl hK) ?_
  rintro b _ ⟨p, l, pos, r, rfl, rfl, hP, hm⟩
  rcases hP.lead.allows with rfl | rfl
  · rw [if_pos (by rfl)]
    refine Wp.bind_ok (a := ()) rfl ?_
    have := H l pos r hP hm
    rw [Pos.over_plain _ plain_quote] at this
    exact this
  · rw [if_neg (by exact Bool.false_ne_true)]
    exact Wp.of_err rfl (hP.inv hK)

theorem nextNameOwned_wp {up : Ctx} {lu : Lead} {d : List Mem} (h : At st inp g (.obj up lu d) s) (hK : K (Ctx.obj up lu d).mode := by trivial) :
    Wp nextNameOwned s (fun t s' => ∃ x : Str, t = x.text ∧ NPost st inp g up lu d s x s') (EOk st inp g K) := by
  unfold nextNameOwned
  refine beforeName_wp h hK fun l pos r hP hm => ?_
  refine Wp.bind' (Wp.lo (readString_lo rfl false)) ?_
  rintro _ _ ⟨x, r', hx, hr, rfl⟩
  cases (show r = x.body ++ 0x22 :: r' from hr)
  obtain ⟨sp, rfl, hN⟩ := name_post hP hm hx
  refine Wp.bind_ok (getString_run rfl) ?_
  rw [mv_nameState, setAcc_setAcc, over_str pos hx]
  exact Wp.bind_ok (setPathName_run (sp := sp) (a := [])) (Wp.pure ⟨x, rfl, hN⟩)

theorem nextName_wp {up : Ctx} {lu : Lead} {d : List Mem} (h : At st inp g (.obj up lu d) s) (hK : K (Ctx.obj up lu d).mode := by trivial) :
    Wp nextName s (fun t s' => ∃ x : Str, t = x.text ∧ NPost st inp g up lu d s x s') (EOk st inp g K) := by
  unfold nextName
  refine beforeName_wp h hK fun l pos r hP hm => ?_
  refine Wp.bind' (Wp.lo (readString_lo rfl true)) ?_
  rintro _ _ ⟨x, r', hx, hr, rfl⟩
  cases (show r = x.body ++ 0x22 :: r' from hr)
  obtain ⟨sp, rfl, hN⟩ := name_post hP hm hx
  have := nextName_ok (st := st) (up := up) (l := lu) (d := d) (pos := pos) (r := r') (sp := sp) hx
  unfold nextName at this
  rw [M.bind_ok beforeName_ok, M.bind_ok (readString_complete hx rfl)] at this
  exact Wp.of_ok this ⟨x, rfl, hN⟩

theorem skipName_wp {up : Ctx} {lu : Lead} {d : List Mem} (h : At st inp g (.obj up lu d) s) (hK : K (Ctx.obj up lu d).mode := by trivial) :
    Wp skipName s (fun _ s' => ∃ x : Str, NPost st inp g up lu d s x s') (EOk st inp g K) := by
  unfold skipName
  refine beforeName_wp h hK fun l pos r hP hm => ?_
  refine Wp.get ?_
  cases ht : st.trackPath with
  | true =>
    rw [if_pos (by simp [nameState, stp, ht])]
    refine Wp.bind' (Wp.lo (readString_lo rfl false)) ?_
    rintro _ _ ⟨x, r', hx, hr, rfl⟩
    cases (show r = x.body ++ 0x22 :: r' from hr)
    obtain ⟨sp, rfl, hN⟩ := name_post hP hm hx
    refine Wp.bind_ok (getString_run rfl) ?_
    rw [mv_nameState, setAcc_setAcc, over_str pos hx]
    exact Wp.of_ok (setPathName_run (sp := sp) (a := [])) ⟨x, hN⟩
  | false =>
    rw [if_neg (by simp [nameState, stp, ht])]
    refine (Wp.lo (skipAll_lo rfl)).post ?_
    rintro _ _ ⟨x, r', hx, hr, rfl⟩
    cases (show r = x.body ++ 0x22 :: r' from hr)
    obtain ⟨sp, rfl, hN⟩ := name_post hP hm hx
    rw [mv_nameState, over_str pos hx]
    refine ⟨x, ?_⟩
    have : nameState st up lu d (pos.over x.bytes) r' = stp st (.val up lu d sp x) (pos.over x.bytes) none r' := by
      simp [nameState, stp, ht, Ctx.stack, Ctx.isEmpty, Ctx.emn]
    rw [this]
    exact hN

end
end Verif.Abs
