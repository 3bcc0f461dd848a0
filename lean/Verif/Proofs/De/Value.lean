import Verif.Proofs.Calls
import Verif.Spec.De
import Verif.Spec.Orderly
/-! # The deserializer gives the implementation of `Deserialize` what is specified for the value -/

namespace Verif.De
open Reader Json Cursor DeSpec
open Writer (IntTy)
open Abs (St)

/-! ## Numbers -/

theorem digits_fold (t : Text) : ∀ acc, digitsValue acc t = if ∀ c ∈ t, '0' ≤ c ∧ c ≤ '9' then some (t.foldl (fun n c => 10 * n + (c.toNat - '0'.toNat)) acc) else none := by
  induction t with
  | nil => intro acc; rfl
  | cons c t ih =>
    intro acc
    rw [digitsValue, ih]
    by_cases h : '0' ≤ c ∧ c ≤ '9'
    · rw [if_pos h, List.foldl_cons, Nat.mul_comm acc 10]
      by_cases h2 : ∀ c ∈ t, '0' ≤ c ∧ c ≤ '9'
      · rw [if_pos h2, if_pos (by intro x hx; exact (List.mem_cons.1 hx).elim (fun e => e ▸ h) (h2 x))]
        rfl
      · rw [if_neg h2, if_neg (fun h3 => h2 fun x hx => h3 x (List.mem_cons_of_mem _ hx))]
    · rw [if_neg h, if_neg (fun h3 => h (h3 c (List.mem_cons_self ..)))]

theorem parseDigits_eq (t : Text) : parseDigits t = natValue t := by
  unfold natValue
  cases t with
  | nil => rw [if_neg (by simp)]; rfl
  | cons c t =>
    rw [parseDigits, digits_fold]
    · simp
    · nofun

theorem inRange_eq (ty : IntTy) (i : Int) : inRange ty i = if fits ty i then some i else none := by
  unfold inRange fits
  by_cases h : ty.min ≤ i ∧ i ≤ ty.max
  · rw [if_pos h, if_pos (by simp [h])]
  · rw [if_neg h, if_neg (by simpa using h)]

theorem parseInt_eq (ty : IntTy) (t : Text) : parseInt ty t = match intValue t with
    | some i => if (ty.signed || t.head? != some '-') && fits ty i then some i else none
    | none => none := by
  match t with
  | '+' :: t =>
    rw [parseInt, parseDigits_eq, intValue]
    cases natValue t with
    | none => rfl
    | some n => simp [inRange_eq]
  | '-' :: t =>
    rw [parseInt, parseDigits_eq, intValue]
    cases natValue t with
    | none => simp
    | some n => cases ty.signed <;> simp [inRange_eq]
  | [] => rfl
  | c :: t =>
    by_cases h1 : c = '+'
    · subst h1
      rw [parseInt, parseDigits_eq, intValue]
      cases natValue t with
      | none => rfl
      | some n => simp [inRange_eq]
    by_cases h2 : c = '-'
    · subst h2
      rw [parseInt, parseDigits_eq, intValue]
      cases natValue t with
      | none => simp
      | some n => cases ty.signed <;> simp [inRange_eq]
    rw [parseInt, parseDigits_eq, intValue]
    · cases natValue (c :: t) with
      | none => rfl
      | some n => simp [inRange_eq, h2]
    · rintro _ ⟨⟩; exact h2 rfl
    · rintro _ ⟨⟩; exact h1 rfl
    · rintro _ ⟨⟩; exact h1 rfl
    · rintro _ ⟨⟩; exact h2 rfl

/-! ## Single calls -/

variable {st : Settings} {T : Tops} {b : Meets.Cond} {k : Cur} {V : Type} {max : Nat} {d : Nat}

/-- `Q`: the result says that the usage was incorrect -/
abbrev DMeetsQ (st : Settings) (T : Tops) (b : Meets.Cond) {α β : Type} (m : D α) (d : Nat) (k : Cur) (ans : Ans β) (P : β → α → Cur → Prop) (Q : α → Prop) : Prop :=
  Meets handle (AtCur st T) DeSpec.kind DeSpec.Misused b m d k ans P Q

abbrev DMeets (st : Settings) (T : Tops) (b : Meets.Cond) {α β : Type} (m : D α) (d : Nat) (k : Cur) (ans : Ans β) (P : β → α → Cur → Prop) : Prop :=
  DMeetsQ st T b m d k ans P Meets.never

/-- the result is the specified one, and the cursor is at the given place -/
abbrev To {α : Type} (c : Cur) : α → α → Cur → Prop := fun x a k' => a = x ∧ k' = c

theorem onReader_run (op : Op) (d : Nat) (s : Option St) : ((onReader op).run d).run handle s = match handle op s with
    | .ret (.ok o) s' => .ret (.ok o, d) s'
    | .ret (.error e) s' => .ret (.error (.reader e), d) s'
    | .panic p => .panic p
    | .unspecified => .unspecified := by
  show (Calls.call op _).run handle s = _
  rw [Calls.run]
  cases handle op s with
  | ret r s' => cases r <;> rfl
  | panic p => rfl
  | unspecified => rfl

theorem onReader_ok {op : Op} {v : Val} {c : Cur} (hct : op ≠ .consumeTrailingWhitespace) (hs : Cursor.step st k op = .ok v c) :
    DMeets st T b (onReader op) d k (.ok v) (fun v o k' => valOf o = v ∧ k' = c) := by
  intro s hk
  have h1 := handle_step hct hk
  rw [hs] at h1
  obtain ⟨o, s', h2, h3, h4⟩ := h1
  exact ⟨o, c, s', by rw [onReader_run, h2], h4, h3, rfl⟩

theorem onReader_err {op : Op} {e : Kind} (hct : op ≠ .consumeTrailingWhitespace) (hs : stepAnswer (Cursor.step st k op) = .err e) (he : e ≠ .other) {α β : Type} {P : β → α → Cur → Prop} {Q : α → Prop} {f : Out → D α} :
    DMeetsQ st T b (onReader op >>= f) d k (.err (.reader e)) P Q := by
  intro s hk
  have h1 := handle_step hct hk
  rw [hs] at h1
  obtain ⟨x, s', h2, h3⟩ := h1 he
  intro _
  refine ⟨.reader x, d, s', ?_, congrArg _ h3⟩
  rw [CT.run_bind, Calls.run_bind, onReader_run, h2]
  rfl

theorem unitCall_ok {op : Op} {v : Val} {c : Cur} (hct : op ≠ .consumeTrailingWhitespace) (hs : Cursor.step st k op = .ok v c) : DMeets st T b (unitCall op) d k (.ok ()) (To c) := by
  show DMeets st T b _ d k ((Answer.ok v : Ans Val) >>= fun _ => Answer.ok ()) _
  exact (onReader_ok hct hs).bind fun x a k' h _ => Meets.pure ⟨rfl, h.2⟩

theorem boolCall_ok {op : Op} {x : Bool} {c : Cur} (hct : op ≠ .consumeTrailingWhitespace) (hs : Cursor.step st k op = .ok (.bool x) c) : DMeets st T b (boolCall op) d k (.ok x) (To c) := by
  show DMeets st T b _ d k ((Answer.ok (Val.bool x) : Ans Val) >>= fun _ => Answer.ok x) _
  refine (onReader_ok hct hs).bind fun y a k' h he => ?_
  cases he
  cases a with
  | bool y => obtain ⟨⟨⟩, rfl⟩ := h; exact Meets.pure ⟨rfl, rfl⟩
  | _ => exact absurd h.1 nofun

theorem textCall_ok {op : Op} {x : Text} {c : Cur} (hct : op ≠ .consumeTrailingWhitespace) (hs : Cursor.step st k op = .ok (.text x) c) : DMeets st T b (textCall op) d k (.ok x) (To c) := by
  show DMeets st T b _ d k ((Answer.ok (Val.text x) : Ans Val) >>= fun _ => Answer.ok x) _
  refine (onReader_ok hct hs).bind fun y a k' h he => ?_
  cases he
  cases a with
  | text y => obtain ⟨⟨⟩, rfl⟩ := h; exact Meets.pure ⟨rfl, rfl⟩
  | _ => exact absurd h.1 nofun

theorem peek_ok {x : ValueType} {c : Cur} (hs : Cursor.step st k .peek = .ok (.type x) c) : DMeets st T b peek d k (.ok x) (To c) := by
  show DMeets st T b _ d k ((Answer.ok (Val.type x) : Ans Val) >>= fun _ => Answer.ok x) _
  refine (onReader_ok (by nofun) hs).bind fun y a k' h he => ?_
  cases he
  cases a with
  | type y => obtain ⟨⟨⟩, rfl⟩ := h; exact Meets.pure ⟨rfl, rfl⟩
  | _ => exact absurd h.1 nofun

/-- `Meets.bind` for code which has just one result -/
theorem seq_ok {α β γ : Type} {m : D α} {x : α} {c : Cur} {f : α → D β} {ans : Ans γ} {P : γ → β → Cur → Prop} {Q : β → Prop} (h : DMeets st T b m d k (.ok x) (To c))
    (hf : DMeetsQ st T b (f x) d c ans P Q) : DMeetsQ st T b (m >>= f) d k ans P Q := by
  show DMeetsQ st T b _ d k ((Answer.ok x : Ans α) >>= fun _ => ans) P Q
  refine h.bind fun y a k' h he => ?_
  cases he
  obtain ⟨rfl, rfl⟩ := h
  exact hf

theorem ofExcept_meets {α : Type} (r : Except DErr α) : DMeets st T b (CT.ofExcept r) d k (Ans.of r) (To k) := by
  cases r with
  | ok a => exact Meets.pure ⟨rfl, rfl⟩
  | error e => exact Meets.fail rfl

theorem checkNesting_deep {α β : Type} {body : D α} {P : β → α → Cur → Prop} (h : max ≤ d) : DMeets st T b (checkNesting max body) d k (.err (.maxNestingDepthExceeded max)) P := by
  intro s _ _
  refine ⟨.maxNestingDepthExceeded max, d, s, ?_, rfl⟩
  show (((if d ≥ max then CT.fail (.maxNestingDepthExceeded max) else _) : D α).run d).run handle s = _
  rw [if_pos h]
  rfl

theorem checkNesting_meets {α β : Type} {body : D α} {P : β → α → Cur → Prop} {ans : Ans β} (h : ¬ max ≤ d) (hb : DMeets st T b body (d + 1) k ans P) :
    DMeets st T b (checkNesting max body) d k ans P := by
  intro s hs
  have h1 := hb s hs
  have h0 : ((checkNesting max body).run d).run handle s = match (body.run (d + 1)).run handle s with
    | .ret (.ok a, d') s' => .ret (.ok a, d' - 1) s'
    | .ret (.error e, d') s' => .ret (.error e, d') s'
    | .panic p => .panic p
    | .unspecified => .unspecified := by
    show (((if d ≥ max then CT.fail (.maxNestingDepthExceeded max) else _) : D α).run d).run handle s = _
    rw [if_neg h, CT.run_bind]
    show ((((body >>= _) : D α).run (d + 1))).run handle s = _
    rw [CT.run_bind, Calls.run_bind]
    cases (body.run (d + 1)).run handle s with
    | ret a s' => obtain ⟨r, d'⟩ := a; cases r <;> rfl
    | panic p => rfl
    | unspecified => rfl
  unfold Meets.Post at *
  rw [h0]
  cases ans with
  | ok x =>
    obtain ⟨a, k', s', h2, h3, h4⟩ := h1
    exact ⟨a, k', s', by rw [h2]; rfl, h3, h4⟩
  | err e =>
    intro hb
    obtain ⟨y, d', s', h2, h3⟩ := h1 hb
    exact ⟨y, d', s', by rw [h2], h3⟩
  | misuse =>
    intro hb
    rcases h1 hb with ⟨p, h2, h3⟩ | ⟨_, _, _, _, h3⟩
    · exact .inl ⟨p, by rw [h2], h3⟩
    · exact h3.elim

/-! ## The visitor -/

/-- The value `v` is at the place `k` -/
structure Here (st : Settings) (max : Nat) (k : Cur) (env : Env) (v : JVal) : Prop where
  can : k.canValue st.allowMultipleTopLevel = true
  next : k.next = some v
  opened : env.opened = k.frames.length
  st : env.st = st
  max : env.max = max

/-- The place `k` is inside of an array or object -/
structure Inside (st : Settings) (max : Nat) (k : Cur) (env : Env) : Prop where
  str : k.str = false
  opened : env.opened = k.frames.length + 1
  st : env.st = st
  max : env.max = max

theorem Here.str {env : Env} {v : JVal} (h : Here st max k env v) : k.str = false := by
  have := h.can
  unfold Cur.canValue at this
  cases hk : k.str with
  | false => rfl
  | true => rw [hk] at this; cases this

theorem Here.withValue {env : Env} {v : JVal} (h : Here st max k env v) (f : JVal → Step) : Cursor.withValue st k f = f v := by
  unfold Cursor.withValue
  rw [h.can, h.next]
  rfl

theorem Here.inside {env : Env} {v : JVal} (h : Here st max k env v) : Inside st max k env.inside := ⟨h.str, congrArg (· + 1) h.opened, h.st, h.max⟩

theorem Inside.item {env : Env} {v : JVal} {vs : List JVal} {i : Nat} (h : Inside st max k env) : Here st max (k.push (.array i (v :: vs))) env v where
  can := by unfold Cur.canValue Cur.push; dsimp only; rw [h.str]; rfl
  next := rfl
  opened := h.opened
  st := h.st
  max := h.max

theorem Inside.member {env : Env} {v : JVal} {ms : List (Text × JVal)} {n : Text} (h : Inside st max k env) : Here st max (k.push (.value n v ms)) env v where
  can := by unfold Cur.canValue Cur.push; dsimp only; rw [h.str]; rfl
  next := rfl
  opened := h.opened
  st := h.st
  max := h.max

/-- the methods of the visitor do what is specified -/
structure VisOk (st : Settings) (T : Tops) (b : Meets.Cond) (max : Nat) (v : Visitor V) (w : VisSem V) : Prop where
  prim : ∀ p, w.prim p = Ans.of (v.prim p)
  some : ∀ {k env x}, Here st max k env x → DMeets st T b v.some env.depth k (w.some env x) (To k.advance)
  newtype : ∀ {k env x}, Here st max k env x → DMeets st T b v.newtype env.depth k (w.newtype env x) (To k.advance)
  seq : ∀ {k env i vs} expected len, Inside st max k env → DMeets st T b (v.seq expected len) env.depth (k.push (.array i vs)) (w.seq env expected len vs)
    (fun x a k' => a = (x.1, x.2.1) ∧ ∃ i', k' = k.push (.array i' x.2.2))
  map : ∀ {k env n ms}, Inside st max k env → DMeetsQ st T b (v.map false) env.depth (k.push (.names n ms)) (w.map env ms)
    (fun x a k' => a = (x.1, false) ∧ ∃ n', k' = k.push (.names n' x.2)) (fun a => a.2 = true)
  enum : ∀ {k env n ms}, Inside st max k env → DMeetsQ st T b v.enum env.depth (k.push (.names n ms)) (w.enum env ms)
    (fun x a k' => a = (x.1, true) ∧ ∃ n', k' = k.push (.names n' x.2)) (fun a => a.2 = false)
  unitEnum : ∀ {k env x}, Here st max k env x → DMeetsQ st T b v.unitEnum env.depth k (w.unitEnum env x) (fun x a k' => a = (x, true) ∧ k' = k.advance) (fun a => a.2 = false)

/-! ## The methods of the deserializer -/

variable {v : Visitor V} {w : VisSem V} {env : Env} {x : JVal}

theorem prim_meets (hv : VisOk st T b max v w) (p : Prim) : DMeets st T b (CT.ofExcept (v.prim p)) d k (w.prim p) (To k) := by
  rw [hv.prim]
  exact ofExcept_meets _

theorem Here.peek_then (h : Here st max k env x) {α β : Type} {f : ValueType → D α} {ans : Ans β} {P : β → α → Cur → Prop} (hf : DMeets st T b (f (typeOf x)) d k ans P) :
    DMeets st T b (peek >>= f) d k ans P := seq_ok (peek_ok (by unfold Cursor.step; dsimp only; rw [h.withValue])) hf

theorem Here.wrong (_h : Here st max k env x) {op : Op} {expected : ValueType} (hct : op ≠ .consumeTrailingWhitespace) (hs : Cursor.step st k op = Cursor.wrongType k expected x) {α β : Type}
    {P : β → α → Cur → Prop} {Q : α → Prop} {f : Out → D α} : DMeetsQ st T b (onReader op >>= f) d k (DeSpec.wrongType expected x) P Q :=
  onReader_err hct (by rw [hs]; rfl) (by nofun)

theorem Here.number (h : Here st max k env x) {op : Op} (hop : op = .nextNumberAsStr) {α : Type} {β : Type} {P : β → α → Cur → Prop} {f : Text → D α} {l : Text → Ans β}
    (hf : ∀ t, DMeets st T b (f t) d k.advance (l t) P) : DMeets st T b (textCall op >>= f) d k (DeSpec.number env x >>= l) P := by
  subst hop
  by_cases hx : ∃ t, x = .num t
  · obtain ⟨t, rfl⟩ := hx
    unfold DeSpec.number
    rw [h.st]
    dsimp only
    split
    · rename_i hr
      unfold textCall
      rw [CT.bind_assoc]
      exact onReader_err (by nofun) (by unfold Cursor.step; dsimp only; rw [h.withValue]; dsimp only; rw [if_pos hr]; rfl) (by nofun)
    · rename_i hr
      exact seq_ok (textCall_ok (by nofun) (by unfold Cursor.step; dsimp only; rw [h.withValue]; dsimp only; rw [if_neg hr])) (hf t)
  · have h1 : DeSpec.number env x = DeSpec.wrongType .number x := by
      cases x with
      | num t => exact absurd ⟨t, rfl⟩ hx
      | _ => rfl
    rw [h1]
    unfold textCall
    rw [CT.bind_assoc]
    refine h.wrong (by nofun) ?_
    unfold Cursor.step
    dsimp only
    rw [h.withValue]
    cases x with
    | num t => exact absurd ⟨t, rfl⟩ hx
    | _ => rfl

theorem Here.string (h : Here st max k env x) {op : Op} (hop : op = .nextStr ∨ op = .nextString) {α : Type} {β : Type} {P : β → α → Cur → Prop} {f : Text → D α} {l : Text → Ans β}
    (hf : ∀ t, DMeets st T b (f t) d k.advance (l t) P) : DMeets st T b (textCall op >>= f) d k (DeSpec.string x >>= l) P := by
  have hct : op ≠ .consumeTrailingWhitespace := by rintro rfl; simp at hop
  have hstep : Cursor.step st k op = match x with
    | .str t => .ok (.text t) k.advance
    | v => Cursor.wrongType k .string v := by
    rcases hop with rfl | rfl <;> (unfold Cursor.step; dsimp only; rw [h.withValue]; cases x <;> rfl)
  cases x with
  | str t => exact seq_ok (textCall_ok hct hstep) (hf t)
  | _ => unfold textCall; rw [CT.bind_assoc]; exact h.wrong hct hstep

theorem push_pop (k : Cur) (f : Frame) : (k.push f).pop = k.advance := by
  unfold Cur.push Cur.pop
  rfl

theorem Here.tooDeep (h : Here st max k env x) : k.tooDeep st.maxNestingDepth 1 = match env.st.maxNestingDepth with
    | some n => if n ≤ env.opened then some n else none
    | none => none := by
  unfold Cur.tooDeep
  rw [h.st, h.opened]
  cases st.maxNestingDepth with
  | none => rfl
  | some n =>
    dsimp only
    by_cases hn : n < k.frames.length + 1
    · rw [if_pos hn, if_pos (by omega)]
    · rw [if_neg hn, if_neg (by omega)]

/-- the beginning of an array or object -/
theorem Here.start (h : Here st max k env x) {op : Op} {expected : ValueType} {isC : Bool} {f : Frame} (hct : op ≠ .consumeTrailingWhitespace)
    (hs : Cursor.step st k op = if isC then beginStep st k f else Cursor.wrongType k expected x) {α β : Type} {P : β → α → Cur → Prop} {body : D α} {ans : Ans β}
    (hb : isC = true → DMeets st T b body (env.depth + 1) (k.push f) ans P) :
    DMeets st T b (checkNesting max (unitCall op >>= fun _ => body)) env.depth k (DeSpec.start env isC expected x ans) P := by
  unfold DeSpec.start
  rw [h.max]
  by_cases hm : max ≤ env.depth
  · rw [if_pos hm]
    exact checkNesting_deep hm
  rw [if_neg hm]
  refine checkNesting_meets hm ?_
  cases isC with
  | false =>
    rw [if_pos (by rfl)]
    unfold unitCall
    rw [CT.bind_assoc]
    exact h.wrong hct hs
  | true =>
    rw [if_neg (by exact Bool.false_ne_true)]
    rw [if_pos rfl] at hs
    unfold beginStep at hs
    rw [h.tooDeep] at hs
    have ok : ∀ {v}, Cursor.step st k op = .ok v (k.push f) → DMeets st T b (unitCall op >>= fun _ => body) (env.depth + 1) k ans P :=
      fun hs => seq_ok (unitCall_ok hct hs) (hb rfl)
    cases hn : env.st.maxNestingDepth with
    | none => rw [hn] at hs; exact ok hs
    | some n =>
      rw [hn] at hs
      dsimp only at hs ⊢
      split
      · rename_i hle
        rw [if_pos hle] at hs
        unfold unitCall
        rw [CT.bind_assoc]
        exact onReader_err hct (by rw [hs]; rfl) (by nofun)
      · rename_i hle
        rw [if_neg hle] at hs
        exact ok hs

theorem Here.beginArray (h : Here st max k env x) : Cursor.step st k .beginArray = if isArr x then beginStep st k (.array 0 (items x)) else Cursor.wrongType k .array x := by
  unfold Cursor.step
  dsimp only
  rw [h.withValue]
  cases x <;> rfl

theorem Here.beginObject (h : Here st max k env x) : Cursor.step st k .beginObject = if isObj x then beginStep st k (.names ['<', '?', '>'] (members x)) else Cursor.wrongType k .object x := by
  unfold Cursor.step
  dsimp only
  rw [h.withValue]
  cases x <;> rfl

/-- the end of an array -/
theorem endArray_meets (hk : k.str = false) {i : Nat} {rest : List JVal} {y : V} :
    DMeets st T b (unitCall .endArray >>= fun _ => pure y) d (k.push (.array i rest)) (noneLeft rest >>= fun _ => pure y) (To k.advance) := by
  cases rest with
  | nil =>
    refine seq_ok (unitCall_ok (by nofun) (v := .unit) (c := k.advance) ?_) (Meets.pure ⟨rfl, rfl⟩)
    unfold Cursor.step Cur.push
    dsimp only
    rw [if_neg (by rw [hk]; exact Bool.false_ne_true)]
    rfl
  | cons v rest =>
    unfold unitCall
    rw [CT.bind_assoc]
    refine onReader_err (by nofun) (e := .structure .moreElementsThanExpected) ?_ (by nofun)
    unfold Cursor.step Cur.push
    dsimp only
    rw [if_neg (by rw [hk]; exact Bool.false_ne_true)]
    rfl

theorem endObject_meets (hk : k.str = false) {n : Text} {rest : List (Text × JVal)} {y : V} :
    DMeets st T b (unitCall .endObject >>= fun _ => pure y) d (k.push (.names n rest)) (noneLeft rest >>= fun _ => pure y) (To k.advance) := by
  cases rest with
  | nil =>
    refine seq_ok (unitCall_ok (by nofun) (v := .unit) (c := k.advance) ?_) (Meets.pure ⟨rfl, rfl⟩)
    unfold Cursor.step Cur.push
    dsimp only
    rw [if_neg (by rw [hk]; exact Bool.false_ne_true)]
    rfl
  | cons v rest =>
    unfold unitCall
    rw [CT.bind_assoc]
    refine onReader_err (by nofun) (e := .structure .moreElementsThanExpected) ?_ (by nofun)
    unfold Cursor.step Cur.push
    dsimp only
    rw [if_neg (by rw [hk]; exact Bool.false_ne_true)]
    rfl

theorem seq_meets (hv : VisOk st T b max v w) (h : Here st max k env x) (expected : Option Nat) :
    DMeets st T b (deserializeSeqWithLength max v expected) env.depth k (DeSpec.seq env expected w x) (To k.advance) := by
  unfold deserializeSeqWithLength DeSpec.seq
  refine h.start (by nofun) h.beginArray fun _ => ?_
  refine (hv.seq (env := env.inside) expected 0 h.inside).bind fun y a k' hy _ => ?_
  obtain ⟨rfl, i', rfl⟩ := hy
  obtain ⟨y, len, rest⟩ := y
  dsimp only
  cases expected with
  | none => exact endArray_meets h.str
  | some n =>
    dsimp only
    split
    · exact Meets.fail rfl
    · exact endArray_meets h.str

theorem map_meets (hv : VisOk st T b max v w) (h : Here st max k env x) : DMeets st T b (deserializeMap max v) env.depth k (DeSpec.map env w x) (To k.advance) := by
  unfold deserializeMap DeSpec.map
  refine h.start (by nofun) h.beginObject fun _ => ?_
  refine (hv.map (env := env.inside) h.inside).bindQ (fun y a k' hy _ => ?_) fun a d' ha => ⟨.trailingValue, ?_, .inr (.inr (.inl rfl))⟩
  · obtain ⟨rfl, i', rfl⟩ := hy
    exact endObject_meets h.str
  · obtain ⟨a, _⟩ := a
    cases ha
    rfl

theorem enumObj_meets (hv : VisOk st T b max v w) {ms : List (Text × JVal)} (h : Here st max k env (.obj ms)) :
    DMeets st T b (checkNesting max do
      unitCall .beginObject
      let (result, consumed) ← v.enum
      if !consumed then CT.panic .variantValue
      else do
        unitCall .endObject
        pure result) env.depth k (DeSpec.enum env w (.obj ms)) (To k.advance) := by
  unfold DeSpec.enum
  refine h.start (by nofun) (h.beginObject.trans rfl) fun _ => ?_
  refine (hv.enum (env := env.inside) h.inside).bindQ (fun y a k' hy _ => ?_) fun a d' ha => ⟨.variantValue, ?_, .inr (.inr (.inr rfl))⟩
  · obtain ⟨rfl, i', rfl⟩ := hy
    exact endObject_meets h.str
  · obtain ⟨a, _⟩ := a
    cases ha
    rfl

theorem enum_meets (hv : VisOk st T b max v w) (h : Here st max k env x) : DMeets st T b (deserializeEnum max v) env.depth k (DeSpec.enum env w x) (To k.advance) := by
  unfold deserializeEnum
  refine h.peek_then ?_
  cases x with
  | obj ms => exact enumObj_meets hv h
  | str t =>
    show DMeets st T b _ env.depth k (w.unitEnum env (.str t)) _
    have h1 := (hv.unitEnum h).bindQ (g := fun p => if !p.2 then CT.panic .variantValue else pure p.1) (l := Answer.ok) (P2 := To k.advance) (Q := Meets.never) (fun y a k' hy _ => by
      obtain ⟨rfl, rfl⟩ := hy
      exact Meets.pure ⟨rfl, rfl⟩) fun a d' ha => ⟨.variantValue, by
        obtain ⟨a, _⟩ := a
        cases ha
        rfl, .inr (.inr (.inr rfl))⟩
    have h2 : (w.unitEnum env (.str t) >>= Answer.ok) = w.unitEnum env (.str t) := by cases w.unitEnum env (.str t) <;> rfl
    rw [h2] at h1
    exact h1
  | _ => exact Meets.fail rfl

theorem number_meets (hv : VisOk st T b max v w) (t : Text) : DMeets st T b (visitNumber v t) d k (anyNumber t >>= w.prim) (To k) := by
  have hf : (t.any fun c => c == '.' || c == 'e' || c == 'E') = isFloat t := by
    unfold isFloat
    rw [Bool.eq_iff_iff]
    simp only [List.any_eq_true, Bool.or_eq_true, beq_iff_eq, List.contains_iff_mem]
    constructor
    · rintro ⟨c, hc, (rfl | rfl) | rfl⟩
      · exact .inl (.inl hc)
      · exact .inl (.inr hc)
      · exact .inr hc
    · rintro ((h | h) | h)
      · exact ⟨_, h, .inl (.inl rfl)⟩
      · exact ⟨_, h, .inl (.inr rfl)⟩
      · exact ⟨_, h, .inr rfl⟩
  unfold visitNumber anyNumber
  rw [hf]
  by_cases h1 : isFloat t = true
  · rw [if_pos h1, if_pos h1]
    exact prim_meets hv _
  rw [if_neg h1, if_neg h1]
  simp only [parseInt_eq]
  cases hi : intValue t with
  | none =>
    dsimp only
    split <;> exact Meets.fail rfl
  | some i =>
    dsimp only
    by_cases h2 : t.head? = some '-'
    · rw [if_pos h2, if_pos h2]
      dsimp only
      by_cases h3 : fits .i64 i = true
      · rw [if_pos (by rw [h3]; rfl), if_pos h3]; exact prim_meets hv _
      · rw [if_neg (by intro h; exact h3 (Bool.and_eq_true_iff.1 h).2), if_neg h3]
        dsimp only
        by_cases h4 : fits .i128 i = true
        · rw [if_pos (by rw [h4]; rfl), if_pos h4]; exact prim_meets hv _
        · rw [if_neg (by intro h; exact h4 (Bool.and_eq_true_iff.1 h).2), if_neg h4]
          exact Meets.fail rfl
    · rw [if_neg h2, if_neg h2]
      have h5 : ∀ ty : IntTy, (ty.signed || t.head? != some '-') = true := by
        intro ty
        rw [Bool.or_eq_true]
        exact .inr (by simpa using h2)
      simp only [h5, Bool.true_and]
      by_cases h3 : fits .u64 i = true
      · rw [if_pos h3, if_pos h3]; exact prim_meets hv _
      · rw [if_neg h3, if_neg h3]
        dsimp only
        by_cases h4 : fits .u128 i = true
        · rw [if_pos h4, if_pos h4]; exact prim_meets hv _
        · rw [if_neg h4, if_neg h4]
          exact Meets.fail rfl

theorem null_meets (h : Here st max k env .null) {β : Type} {ans : Ans β} {P : β → V → Cur → Prop} {m : D V} (hm : DMeets st T b m d k.advance ans P) :
    DMeets st T b (unitCall .nextNull >>= fun _ => m) d k ans P :=
  seq_ok (unitCall_ok (by nofun) (v := .unit) (by unfold Cursor.step; dsimp only; rw [h.withValue])) hm

theorem any_meets (hv : VisOk st T b max v w) (h : Here st max k env x) : DMeets st T b (deserializeAny max v) env.depth k (DeSpec.method env .any w x) (To k.advance) := by
  unfold deserializeAny
  refine h.peek_then ?_
  cases x with
  | arr vs => exact seq_meets hv h none
  | obj ms => exact map_meets hv h
  | str t => exact h.string (.inr rfl) (l := fun t => w.prim (.string t)) fun t => prim_meets hv _
  | bool y =>
    refine seq_ok (boolCall_ok (by nofun) (x := y) (c := k.advance) (by unfold Cursor.step; dsimp only; rw [h.withValue])) ?_
    exact prim_meets hv _
  | null => exact null_meets h (prim_meets hv _)
  | num t => exact h.number rfl (l := fun t => anyNumber t >>= w.prim) fun t => number_meets hv t

theorem int_meets (hv : VisOk st T b max v w) (h : Here st max k env x) (ty : IntTy) : DMeets st T b (deserializeInt ty v) env.depth k (DeSpec.method env (.int ty) w x) (To k.advance) := by
  unfold deserializeInt nextInt
  rw [CT.bind_assoc]
  refine h.number rfl (l := fun t => do let i ← asInt ty t; w.prim (.int ty i)) fun t => ?_
  unfold asInt
  rw [parseInt_eq]
  cases intValue t with
  | none => exact Meets.fail rfl
  | some i =>
    dsimp only
    by_cases hc : ((ty.signed || t.head? != some '-') && fits ty i) = true
    · rw [if_pos hc, if_pos hc]; exact prim_meets hv _
    · rw [if_neg hc, if_neg hc]; exact Meets.fail rfl

theorem skip_meets (hv : VisOk st T b max v w) (h : Here st max k env x) : DMeets st T b (deserializeIgnoredAny v) env.depth k (DeSpec.method env .ignoredAny w x) (To k.advance) := by
  unfold deserializeIgnoredAny
  have hs : Cursor.step st k .skipValue = match k.tooDeep st.maxNestingDepth (depth x) with
    | some n => .stop (.depth n)
    | none => .ok .unit k.advance := by
    unfold Cursor.step
    dsimp only
    rw [h.withValue]
    cases k.tooDeep st.maxNestingDepth (depth x) <;> rfl
  unfold DeSpec.method Cur.tooDeep at *
  rw [h.st, h.opened]
  cases hm : st.maxNestingDepth with
  | none =>
    rw [hm] at hs
    exact seq_ok (unitCall_ok (by nofun) hs) (prim_meets hv _)
  | some n =>
    rw [hm] at hs
    dsimp only at hs ⊢
    split
    · rename_i hd
      rw [if_pos hd] at hs
      unfold unitCall
      rw [CT.bind_assoc]
      exact onReader_err (by nofun) (by rw [hs]; rfl) (by nofun)
    · rename_i hd
      rw [if_neg hd] at hs
      exact seq_ok (unitCall_ok (by nofun) hs) (prim_meets hv _)

theorem unit_meets (hv : VisOk st T b max v w) (h : Here st max k env x) : DMeets st T b (deserializeUnit v) env.depth k (DeSpec.method env .unit w x) (To k.advance) := by
  unfold deserializeUnit
  cases x with
  | null => exact null_meets h (prim_meets hv _)
  | _ =>
    unfold unitCall
    rw [CT.bind_assoc]
    exact h.wrong (by nofun) (by unfold Cursor.step; dsimp only; rw [h.withValue])

theorem bool_meets (hv : VisOk st T b max v w) (h : Here st max k env x) : DMeets st T b (deserializeBool v) env.depth k (DeSpec.method env .bool w x) (To k.advance) := by
  unfold deserializeBool
  cases x with
  | bool y => exact seq_ok (boolCall_ok (by nofun) (by unfold Cursor.step; dsimp only; rw [h.withValue])) (prim_meets hv _)
  | _ =>
    unfold boolCall
    rw [CT.bind_assoc]
    exact h.wrong (by nofun) (by unfold Cursor.step; dsimp only; rw [h.withValue])

theorem str_meets (hv : VisOk st T b max v w) (h : Here st max k env x) : DMeets st T b (deserializeStr v) env.depth k (DeSpec.method env .str w x) (To k.advance) :=
  h.string (.inl rfl) (l := fun t => w.prim (.str t)) fun _ => prim_meets hv _

theorem struct_meets (hv : VisOk st T b max v w) (h : Here st max k env x) : DMeets st T b (deserializeStruct max v) env.depth k (DeSpec.method env .struct w x) (To k.advance) := by
  unfold deserializeStruct
  refine h.peek_then ?_
  cases x with
  | arr vs => exact seq_meets hv h none
  | obj ms => exact map_meets hv h
  | _ => exact Meets.fail rfl

theorem bytes_meets (hv : VisOk st T b max v w) (h : Here st max k env x) : DMeets st T b (deserializeBytes max v) env.depth k (DeSpec.method env .bytes w x) (To k.advance) := by
  unfold deserializeBytes
  refine h.peek_then ?_
  cases x with
  | arr vs => exact seq_meets hv h none
  | str t => exact h.string (.inl rfl) (l := fun t => w.prim (.bytes (enc t))) fun _ => prim_meets hv _
  | _ => exact Meets.fail rfl

theorem byteBuf_meets (hv : VisOk st T b max v w) (h : Here st max k env x) : DMeets st T b (deserializeByteBuf max v) env.depth k (DeSpec.method env .byteBuf w x) (To k.advance) := by
  unfold deserializeByteBuf
  refine h.peek_then ?_
  cases x with
  | arr vs => exact seq_meets hv h none
  | str t => exact h.string (.inr rfl) (l := fun t => w.prim (.byteBuf (enc t))) fun _ => prim_meets hv _
  | _ => exact Meets.fail rfl

theorem option_meets (hv : VisOk st T b max v w) (h : Here st max k env x) : DMeets st T b (deserializeOption v) env.depth k (DeSpec.method env .option w x) (To k.advance) := by
  unfold deserializeOption
  refine h.peek_then ?_
  cases x with
  | null => exact null_meets h (prim_meets hv _)
  | _ => exact hv.some h

theorem method_meets (hv : VisOk st T b max v w) (h : Here st max k env x) (m : Method) : DMeets st T b (method max m v) env.depth k (DeSpec.method env m w x) (To k.advance) := by
  cases m with
  | any => exact any_meets hv h
  | bool => exact bool_meets hv h
  | int ty => exact int_meets hv h ty
  | f32 => exact h.number rfl (l := fun t => w.prim (.f32 t)) fun _ => prim_meets hv _
  | f64 => exact h.number rfl (l := fun t => w.prim (.f64 t)) fun _ => prim_meets hv _
  | char => exact str_meets hv h
  | str => exact str_meets hv h
  | string => exact h.string (.inr rfl) (l := fun t => w.prim (.string t)) fun _ => prim_meets hv _
  | bytes => exact bytes_meets hv h
  | byteBuf => exact byteBuf_meets hv h
  | option => exact option_meets hv h
  | unit => exact unit_meets hv h
  | unitStruct => exact unit_meets hv h
  | newtypeStruct => exact hv.newtype h
  | seq => exact seq_meets hv h none
  | tuple n => exact seq_meets hv h (some n)
  | tupleStruct n => exact seq_meets hv h (some n)
  | map => exact map_meets hv h
  | struct => exact struct_meets hv h
  | enum => exact enum_meets hv h
  | identifier => exact str_meets hv h
  | ignoredAny => exact skip_meets hv h

end Verif.De
