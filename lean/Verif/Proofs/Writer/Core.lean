import Verif.Proofs.Writer.Sv
import Verif.Proofs.Writer.Int
/-!
# The writer does what the specification says
-/

namespace Verif.Writer
open Json Utf8
open WSpec (Written Step Denotes Rejected Unfinished strLit gap sep close colonWs cst lead JOk JOks JOkm SvWrites svData)

/-! ## Relation between the fields of the writer and what has been written -/

def kind : WSpec.Frame → StackValue
  | .arr _ => .array
  | .obj .. => .object

def expects : List WSpec.Frame → Bool
  | .obj _ none :: _ => true
  | _ => false

def emptyOf (tops : List JVal) : List WSpec.Frame → Bool
  | [] => tops.isEmpty
  | .arr vs :: _ => vs.isEmpty
  | .obj ms _ :: _ => ms.isEmpty

def level : List WSpec.Frame → Nat
  | [] => 0
  | .arr vs :: fs => fs.length + (if vs.isEmpty then 0 else 1)
  | .obj ms p :: fs => fs.length + (if ms.isEmpty && p.isNone then 0 else 1)

structure Full (c : Core) (tops : List JVal) (frames : List WSpec.Frame) : Prop where
  stack : c.stack = frames.map kind
  expects : c.expectsMemberName = expects frames
  empty : c.isEmpty = emptyOf tops frames
  level : c.indentationLevel = if c.settings.prettyPrint then level frames else 0
  sv : c.sv = .new

structure WInv (st : WSettings) (c : Core) (w : Written) : Prop where
  settings : c.settings = st
  active : c.stringWriterActive = w.str.isSome
  full : w.str = none → Full c w.tops w.frames

theorem WInv.new (st : WSettings) : WInv st (Core.new st) .empty :=
  ⟨rfl, rfl, fun _ => ⟨rfl, rfl, rfl, by show 0 = if st.prettyPrint = true then 0 else 0; rw [ite_self], rfl⟩⟩

/-! ## What has been written is well-formed -/

def FrameOk : WSpec.Frame → Prop
  | .arr vs => JOks vs
  | .obj ms _ => JOkm ms

def FramesOk (st : WSettings) (tops : List JVal) : List WSpec.Frame → Prop
  | [] => True
  | f :: fs => Written.CanAdd st ⟨tops, fs, none⟩ ∧ FrameOk f ∧ FramesOk st tops fs

/-- every container has been started where this is allowed, and all numbers are numbers -/
structure WOk (st : WSettings) (w : Written) : Prop where
  tops : JOks w.tops
  single : w.tops.length ≤ 1 ∨ st.separator ≠ none
  frames : FramesOk st w.tops w.frames
  str : w.str ≠ none → Written.CanAdd st ⟨w.tops, w.frames, none⟩

theorem WOk.empty (st : WSettings) : WOk st .empty := ⟨trivial, .inl (Nat.zero_le _), trivial, fun h => absurd rfl h⟩

theorem joks_append {vs : List JVal} {v : JVal} (h : JOks vs) (hv : JOk v) : JOks (vs ++ [v]) := by
  induction vs with
  | nil => exact ⟨hv, trivial⟩
  | cons _ _ ih => exact ⟨h.1, ih h.2⟩

theorem jokm_append {ms : List (Text × JVal)} {v : JVal} {n : Text} (h : JOkm ms) (hv : JOk v) : JOkm (ms ++ [(n, v)]) := by
  induction ms with
  | nil => exact ⟨hv, trivial⟩
  | cons _ _ ih => exact ⟨h.1, ih h.2⟩

theorem denotes_ok {op : WOp} {v : JVal} (h : Denotes op v) : JOk v := by
  cases h with
  | string => trivial
  | bool => trivial
  | null => trivial
  | int _ _ _ h => exact isInteger_number h
  | transferred _ h => exact h
  | float _ h => exact h
  | number _ h => exact h
  | stringWriter => trivial

theorem framesOk_tops {st : WSettings} {tops : List JVal} {v : JVal} {fs : List WSpec.Frame} (hs : st.separator ≠ none) (h : FramesOk st tops fs) : FramesOk st (tops ++ [v]) fs := by
  induction fs with
  | nil => trivial
  | cons f fs ih =>
    refine ⟨⟨rfl, ?_⟩, h.2.1, ih h.2.2⟩
    have := h.1.2
    cases fs with
    | nil => exact .inr hs
    | cons f fs =>
      match f, this with
      | .arr _, _ => trivial
      | .obj _ (some _), _ => trivial

theorem WOk.add {st : WSettings} {w : Written} {v : JVal} (h : WOk st w) (hc : w.CanAdd st) (hv : JOk v) : WOk st (w.add v) := by
  obtain ⟨tops, frames, str⟩ := w
  obtain ⟨h1, h2, h3, h4⟩ := h
  obtain ⟨rfl, hc⟩ := hc
  match frames, hc, h3 with
  | [], hc, _ =>
    refine ⟨joks_append h1 hv, ?_, trivial, fun h => absurd rfl h⟩
    rcases hc with hc | hc
    · dsimp only at hc; subst hc; exact .inl (Nat.le_refl _)
    · exact .inr hc
  | .arr vs :: fs, _, h3 => exact ⟨h1, h2, ⟨h3.1, joks_append h3.2.1 hv, h3.2.2⟩, fun h => absurd rfl h⟩
  | .obj ms (some n) :: fs, _, h3 => exact ⟨h1, h2, ⟨h3.1, jokm_append h3.2.1 hv, h3.2.2⟩, fun h => absurd rfl h⟩

theorem WOk.step {st : WSettings} {w w' : Written} {op : WOp} (h : WOk st w) (hs : Step st w op w') : WOk st w' := by
  cases hs with
  | value hc hd => exact h.add hc (denotes_ok hd)
  | rejected => exact h
  | unfinished hc _ => exact ⟨h.tops, h.single, h.frames, fun _ => ⟨rfl, hc.2⟩⟩
  | beginArray hc => exact ⟨h.tops, h.single, ⟨⟨rfl, hc.2⟩, trivial, h.frames⟩, fun h' => absurd hc.1 h'⟩
  | beginObject hc => exact ⟨h.tops, h.single, ⟨⟨rfl, hc.2⟩, trivial, h.frames⟩, fun h' => absurd hc.1 h'⟩
  | endArray => exact WOk.add ⟨h.tops, h.single, h.frames.2.2, fun h' => absurd rfl h'⟩ h.frames.1 h.frames.2.1
  | endObject => exact WOk.add ⟨h.tops, h.single, h.frames.2.2, fun h' => absurd rfl h'⟩ h.frames.1 h.frames.2.1
  | name => exact ⟨h.tops, h.single, ⟨h.frames.1, h.frames.2.1, h.frames.2.2⟩, fun h' => absurd rfl h'⟩
  | finish => exact h

/-! ## Layout -/

theorem emits_indentLoop (n : Nat) (c : Core) : Emits (writeIndentationLoop n) c (List.replicate (2 * n) 0x20) () c := by
  induction n with
  | zero => exact emits_pure
  | succ n ih =>
    refine (emits_writeBytes.bind ih).cast ?_
    rw [show 2 * (n + 1) = 2 * n + 1 + 1 by omega]
    rfl

theorem emits_indent (c : Core) : Emits writeIndentation c (List.replicate (2 * c.indentationLevel) 0x20) () c :=
  emits_get.seq (emits_indentLoop _ c)

theorem spaces_bytes (n : Nat) : Ws.bytes (List.replicate n (.space 0x20)) = List.replicate n 0x20 := by
  induction n with
  | zero => rfl
  | succ n ih =>
    rw [List.replicate_succ, List.replicate_succ, ← ih]
    rfl

theorem gap_bytes (st : WSettings) (n : Nat) : (gap st n).bytes = if st.prettyPrint then 0x0A :: List.replicate (2 * n) 0x20 else [] := by
  unfold gap
  split
  · rw [← spaces_bytes]; rfl
  · rfl

theorem sep_bytes (st : WSettings) (n : Nat) (first : Bool) :
    (sep st n first).bytes = (if first then [] else [0x2C]) ++ (if st.prettyPrint then 0x0A :: List.replicate (2 * (n + 1)) 0x20 else []) := by
  rw [← gap_bytes]
  unfold sep
  cases first <;> simp [Sep.bytes, Ws.bytes]

theorem close_bytes (st : WSettings) (n : Nat) (first : Bool) :
    (close st n first).bytes = if first then [] else (if st.prettyPrint then 0x0A :: List.replicate (2 * n) 0x20 else []) := by
  rw [← gap_bytes]
  unfold close
  cases first <;> simp [Sep.bytes, Ws.bytes]

/-- in front of an element or member -/
theorem beforeContainerElement_emits {c : Core} {n : Nat} (hl : c.indentationLevel = if c.settings.prettyPrint then n + (if c.isEmpty then 0 else 1) else 0) :
    Emits beforeContainerElement c (sep c.settings n c.isEmpty).bytes () { c with indentationLevel := if c.settings.prettyPrint then n + 1 else 0 } := by
  rw [sep_bytes]
  unfold beforeContainerElement
  refine emits_get.seq ?_
  by_cases he : c.isEmpty = true <;> by_cases hp : c.settings.prettyPrint = true
  · rw [if_pos he, if_pos hp, if_pos he, if_pos hp, if_pos hp]
    rw [if_pos hp, if_pos he] at hl
    refine (emits_writeBytes.bind (bs' := List.replicate (2 * (n + 1)) 0x20) ?_).cast rfl
    refine Emits.seq (a := ()) (s' := { c with indentationLevel := n + 1 }) (by rw [show n + 1 = c.indentationLevel + 1 by omega]; exact emits_modify) ?_
    exact emits_indent _
  · rw [if_pos he, if_neg hp, if_pos he, if_neg hp, if_neg hp]
    rw [if_neg hp] at hl
    have : ({ c with indentationLevel := 0 } : Core) = c := by rw [← hl]
    rw [this]; exact emits_pure
  · rw [if_neg he, if_pos hp, if_neg he, if_pos hp, if_pos hp]
    rw [if_pos hp, if_neg he] at hl
    have : ({ c with indentationLevel := n + 1 } : Core) = c := by rw [← hl]
    rw [this]
    refine (emits_writeBytes.bind (bs' := List.replicate (2 * (n + 1)) 0x20) ?_).cast rfl
    rw [← hl]
    exact emits_indent _
  · rw [if_neg he, if_neg hp, if_neg he, if_neg hp, if_neg hp]
    rw [if_neg hp] at hl
    have : ({ c with indentationLevel := 0 } : Core) = c := by rw [← hl]
    rw [this]; exact emits_writeBytes

/-! ## In front of a value -/

def arrTop : List WSpec.Frame → Bool
  | .arr _ :: _ => true
  | _ => false

def objTop : List WSpec.Frame → Bool
  | .obj _ _ :: _ => true
  | _ => false

theorem Full.inArray {c : Core} {tops : List JVal} {frames : List WSpec.Frame} (h : Full c tops frames) :
    isInArray c = arrTop frames := by
  unfold isInArray
  rw [h.stack]
  match frames with
  | [] => rfl
  | .arr _ :: _ => rfl
  | .obj _ _ :: _ => rfl

theorem Full.inObject {c : Core} {tops : List JVal} {frames : List WSpec.Frame} (h : Full c tops frames) :
    isInObject c = objTop frames := by
  unfold isInObject
  rw [h.stack]
  match frames with
  | [] => rfl
  | .arr _ :: _ => rfl
  | .obj _ _ :: _ => rfl

theorem beforeValue_rest {c : Core} {bs : Bytes} {c' : Core} (ha : c.stringWriterActive = false) (he : c.expectsMemberName = false) (h : Emits beforeValueSeparator c bs () c') :
    Emits beforeValue c bs () (if isInObject c' then { c' with isEmpty := false, expectsMemberName := true } else { c' with isEmpty := false }) := by
  unfold beforeValue
  refine emits_get.seq ?_
  rw [if_neg (by rw [ha]; exact Bool.false_ne_true), if_neg (by rw [he]; exact Bool.false_ne_true)]
  refine Emits.last (a := ()) h ?_
  refine Emits.seq (a := ()) emits_modify ?_
  have hm : (if isInObject c' then { c' with isEmpty := false, expectsMemberName := true } else { c' with isEmpty := false } : Core) =
      (fun c => if isInObject c then { c with expectsMemberName := true } else c) { c' with isEmpty := false } := rfl
  rw [hm]
  exact emits_modify

/-- the state after a value has been written, whichever value it is -/
structure Added (st : WSettings) (c c' : Core) (w : Written) : Prop where
  settings : c'.settings = st
  active : c'.stringWriterActive = false
  stack : c'.stack = w.frames.map kind
  level : c'.indentationLevel = if st.prettyPrint then w.frames.length else 0
  full : ∀ v, Full c' (w.add v).tops (w.add v).frames

theorem beforeValue_emits {st : WSettings} {c : Core} {w : Written} (h : WInv st c w) (hc : w.CanAdd st) :
    ∃ c', Emits beforeValue c (lead st w.tops w.frames) () c' ∧ Added st c c' w := by
  obtain ⟨tops, frames, str⟩ := w
  obtain ⟨hst, ha, hf⟩ := h
  obtain ⟨rfl, hc⟩ := hc
  have hf := hf rfl
  have ha : c.stringWriterActive = false := ha
  subst hst
  match frames, hc, hf with
  | [], hc, hf =>
    have hio : isInObject c = false := hf.inObject
    have hl : c.indentationLevel = 0 := by have h4 := hf.level; simpa [level] using h4
    have hres : Added c.settings c { c with isEmpty := false } ⟨tops, [], none⟩ := by
      refine ⟨rfl, ha, hf.stack, by simp [hl], fun v => ⟨hf.stack, hf.expects, ?_, ?_, hf.sv⟩⟩
      · simp [Written.add, emptyOf]
      · simp [Written.add, level, hl]
    have hem : c.isEmpty = tops.isEmpty := hf.empty
    have hst : c.stack = [] := hf.stack
    refine ⟨_, ?_, hres⟩
    have key : Emits beforeValueSeparator c (lead c.settings tops []) () c := by
      unfold beforeValueSeparator
      refine emits_get.seq ?_
      rw [hst, hem]
      cases htop : tops with
      | nil =>
        rw [if_neg (by simp), if_neg (by have : isInArray c = false := hf.inArray
                                         rw [this]; exact Bool.false_ne_true)]
        exact emits_pure
      | cons v vs =>
        rw [if_pos (by simp)]
        rcases hc with hc | hc
        · dsimp only at hc; rw [htop] at hc; cases hc
        · cases hsep : c.settings.separator with
          | none => exact absurd hsep hc
          | some s =>
            refine emits_writeBytes.cast ?_
            simp [lead, WSpec.topSep, hsep]
    have := beforeValue_rest ha hf.expects key
    rwa [if_neg (by rw [hio]; exact Bool.false_ne_true)] at this
  | .arr vs :: fs, _, hf =>
    have hem : c.isEmpty = vs.isEmpty := hf.empty
    have hl : c.indentationLevel = if c.settings.prettyPrint then fs.length + (if c.isEmpty then 0 else 1) else 0 := by rw [hem]; exact hf.level
    have key : Emits beforeValueSeparator c (sep c.settings fs.length c.isEmpty).bytes () { c with indentationLevel := if c.settings.prettyPrint then fs.length + 1 else 0 } := by
      unfold beforeValueSeparator
      refine emits_get.seq ?_
      rw [if_neg (by rw [hf.stack]; simp), if_pos (by exact hf.inArray)]
      exact beforeContainerElement_emits hl
    have := beforeValue_rest ha hf.expects key
    rw [if_neg (by
      have : isInObject { c with indentationLevel := if c.settings.prettyPrint then fs.length + 1 else 0 } = false := hf.inObject
      rw [this]; exact Bool.false_ne_true)] at this
    refine ⟨_, this.cast ?_, rfl, ha, hf.stack, rfl, fun v => ⟨hf.stack, hf.expects, ?_, ?_, hf.sv⟩⟩
    · rw [hem]; rfl
    · simp [Written.add, emptyOf]
    · simp [Written.add, level]
  | .obj ms (some n) :: fs, _, hf =>
    have key : Emits beforeValueSeparator c [] () c := by
      unfold beforeValueSeparator
      refine emits_get.seq ?_
      rw [if_neg (by rw [hf.stack]; simp), if_neg (by have : isInArray c = false := hf.inArray
                                                      rw [this]; exact Bool.false_ne_true)]
      exact emits_pure
    have := beforeValue_rest ha hf.expects key
    rw [if_pos (by exact hf.inObject)] at this
    have hl : c.indentationLevel = if c.settings.prettyPrint then fs.length + 1 else 0 := by have := hf.level; simpa [level] using this
    refine ⟨_, this, rfl, ha, hf.stack, hl, fun v => ⟨hf.stack, rfl, ?_, ?_, hf.sv⟩⟩
    · simp [Written.add, emptyOf]
    · simp [Written.add, level, hl]

theorem beforeValue_panics {st : WSettings} {c : Core} {w : Written} (h : WInv st c w) (hc : ¬ w.CanAdd st) : ∃ u, Panics beforeValue c [] (.usage u) := by
  obtain ⟨tops, frames, str⟩ := w
  obtain ⟨hst, ha, hf⟩ := h
  unfold beforeValue
  cases str with
  | some t =>
    have ha : c.stringWriterActive = true := ha
    exact ⟨_, emits_get.seq_panic (by rw [if_pos ha]; exact panics_usage)⟩
  | none =>
    have hf := hf rfl
    have ha' : ¬ c.stringWriterActive = true := by rw [show c.stringWriterActive = false from ha]; exact Bool.false_ne_true
    clear ha
    match frames, hc, hf with
    | [], hc, hf =>
      have he : ¬ c.expectsMemberName = true := by rw [hf.expects]; exact Bool.false_ne_true
      refine ⟨.multipleTopLevel, emits_get.seq_panic ?_⟩
      rw [if_neg ha', if_neg he]
      refine Panics.bind ?_
      unfold beforeValueSeparator
      refine emits_get.seq_panic ?_
      have hne : tops ≠ [] ∧ st.separator = none := by
        constructor
        · rintro rfl; exact hc ⟨rfl, .inl rfl⟩
        · cases hs : st.separator with
          | none => rfl
          | some s => exact absurd ⟨rfl, .inr (by rw [hs]; exact nofun)⟩ hc
      have hem : c.isEmpty = false := by
        rw [hf.empty]
        cases tops with
        | nil => exact absurd rfl hne.1
        | cons => rfl
      rw [if_pos (by rw [hem, hf.stack]; rfl), hst, hne.2]
      exact panics_usage
    | .arr vs :: fs, hc, hf => exact absurd ⟨rfl, trivial⟩ hc
    | .obj ms (some n) :: fs, hc, hf => exact absurd ⟨rfl, trivial⟩ hc
    | .obj ms none :: fs, hc, hf =>
      refine ⟨.valueWhenNameExpected, emits_get.seq_panic ?_⟩
      rw [if_neg ha', if_pos (by rw [hf.expects]; rfl)]
      exact panics_usage

/-! ## End of a container -/

def popped (c : Core) (n : Nat) : Core :=
  { c with stack := c.stack.tail, isEmpty := false, indentationLevel := (if c.settings.prettyPrint then n else 0),
           expectsMemberName := c.stack.tail.head? == some .object }

theorem onContainerEnd_emits {c : Core} {n : Nat} (hl : c.indentationLevel = if c.settings.prettyPrint then n + (if c.isEmpty then 0 else 1) else 0) :
    Emits onContainerEnd c (close c.settings n c.isEmpty).bytes () (popped c n) := by
  rw [close_bytes]
  unfold onContainerEnd
  refine Emits.seq (a := ()) (s' := { c with stack := c.stack.tail }) emits_modify (emits_get.seq ?_)
  dsimp only
  by_cases he : c.isEmpty = true <;> by_cases hp : c.settings.prettyPrint = true
  · rw [if_neg (by simp [he]), if_pos he]
    rw [if_pos hp, if_pos he] at hl
    refine Emits.seq (a := ()) emits_modify ?_
    have : popped c n = (fun c : Core => { c with expectsMemberName := isInObject c }) { c with stack := c.stack.tail, isEmpty := false } := by
      unfold popped
      rw [if_pos hp]
      show _ = ({ c with stack := c.stack.tail, isEmpty := false, expectsMemberName := isInObject { c with stack := c.stack.tail, isEmpty := false } } : Core)
      rw [show n = c.indentationLevel by omega]
      rfl
    rw [this]; exact emits_modify
  · rw [if_neg (by simp [he]), if_pos he]
    rw [if_neg hp] at hl
    refine Emits.seq (a := ()) emits_modify ?_
    have : popped c n = (fun c : Core => { c with expectsMemberName := isInObject c }) { c with stack := c.stack.tail, isEmpty := false } := by
      unfold popped
      rw [if_neg hp, ← hl]
      rfl
    rw [this]; exact emits_modify
  · rw [if_pos (by simp [he, hp]), if_neg he, if_pos hp]
    rw [if_pos hp, if_neg he] at hl
    have hd : Emits decreaseIndentation { c with stack := c.stack.tail } [] () { c with stack := c.stack.tail, indentationLevel := n } := by
      unfold decreaseIndentation
      refine emits_get.seq ?_
      refine (emits_csub (show 1 ≤ c.indentationLevel by omega)).seq ?_
      rw [show c.indentationLevel - 1 = n by omega]
      exact emits_modify
    have hrest : Emits (do T.modify fun c => { c with isEmpty := false }; T.modify fun c => { c with expectsMemberName := isInObject c } : W Unit)
        { c with stack := c.stack.tail, indentationLevel := n } [] () (popped c n) := by
      refine Emits.seq (a := ()) emits_modify ?_
      have : popped c n = (fun c : Core => { c with expectsMemberName := isInObject c }) { c with stack := c.stack.tail, isEmpty := false, indentationLevel := n } := by
        unfold popped
        rw [if_pos hp]
        rfl
      rw [this]; exact emits_modify
    exact (emits_writeBytes.bind (hd.seq ((emits_indent _).last hrest))).cast rfl
  · rw [if_neg (by simp [hp]), if_neg he, if_neg hp]
    rw [if_neg hp] at hl
    refine Emits.seq (a := ()) emits_modify ?_
    have : popped c n = (fun c : Core => { c with expectsMemberName := isInObject c }) { c with stack := c.stack.tail, isEmpty := false } := by
      unfold popped
      rw [if_neg hp, ← hl]
      rfl
    rw [this]; exact emits_modify

theorem full_popped {st : WSettings} {c : Core} {tops : List JVal} {fs : List WSpec.Frame} {v : JVal} (hs : c.stack.tail = fs.map kind) (hsv : c.sv = .new)
    (hc : Written.CanAdd st ⟨tops, fs, none⟩) : Full (popped c fs.length) (Written.add ⟨tops, fs, none⟩ v).tops (Written.add ⟨tops, fs, none⟩ v).frames := by
  obtain ⟨-, hc⟩ := hc
  match fs, hc, hs with
  | [], hc, hs =>
    refine ⟨hs, ?_, ?_, ?_, hsv⟩
    · simp [popped, hs, Written.add, expects]
    · simp [popped, Written.add, emptyOf]
    · simp [popped, Written.add, level]
  | .arr vs :: fs, hc, hs =>
    refine ⟨hs, ?_, ?_, ?_, hsv⟩
    · simp [popped, hs, Written.add, expects, kind]
    · simp [popped, Written.add, emptyOf]
    · simp [popped, Written.add, level]
  | .obj ms (some n) :: fs, hc, hs =>
    refine ⟨hs, ?_, ?_, ?_, hsv⟩
    · simp [popped, hs, Written.add, expects, kind]
    · simp [popped, Written.add, emptyOf]
    · simp [popped, Written.add, level]

/-- the state of the writer is determined by what has been written -/
theorem WInv.unique {st : WSettings} {c c' : Core} {w : Written} (h : WInv st c w) (h' : WInv st c' w) (hw : w.str = none) : c = c' := by
  obtain ⟨a, b, f⟩ := h
  obtain ⟨a', b', f'⟩ := h'
  obtain ⟨f1, f2, f3, f4, f5⟩ := f hw
  obtain ⟨f1', f2', f3', f4', f5'⟩ := f' hw
  cases c; cases c'
  dsimp only at *
  subst a
  subst a'
  simp_all

end Verif.Writer
