import Verif.Proofs.Writer.Ops
/-!
# Sequences of calls of the writer
-/

namespace Verif.Writer
open Json Utf8
open WSpec (Written Step Steps Denotes Rejected Unfinished SvWrites svData JOk JOkm)

variable {st : WSettings}

/-! ## The result of allowed calls is determined -/

/-- equal except for the text of an unfinished string value -/
def Like (a b : Written) : Prop := a.tops = b.tops ∧ a.frames = b.frames ∧ a.str.isSome = b.str.isSome

theorem Like.refl (a : Written) : Like a a := ⟨rfl, rfl, rfl⟩

theorem like_eq {a b : Written} (h : Like a b) (ha : a.str = none) : a = b := by
  obtain ⟨t, f, s⟩ := a
  obtain ⟨t', f', s'⟩ := b
  obtain ⟨h1, h2, h3⟩ := h
  dsimp only at h1 h2 h3 ha
  subst h1 h2 ha
  cases s' with
  | none => rfl
  | some => cases h3

theorem enc_inj {a b : Text} (h : enc a = enc b) : a = b := by
  obtain ⟨T2, h1, h2⟩ := enc_split (t := a) (T := b) (X := []) (by rw [List.append_nil]; exact h)
  cases T2 with
  | nil => rw [h1, List.append_nil]
  | cons c cs =>
    rw [Verif.enc_cons] at h2
    exact absurd (List.append_eq_nil_iff.1 h2.symm).1 (encodeChar_ne_nil c)

theorem denotes_unique {op : WOp} {v v' : JVal} (h : Denotes op v) (h' : Denotes op v') : v = v' := by
  cases h with
  | string => cases h'; rfl
  | bool => cases h'; rfl
  | null => cases h'; rfl
  | int ty i t h => cases h' with | int _ _ t' h' => rw [isInteger_unique h h']
  | transferred => cases h'; rfl
  | float => cases h'; rfl
  | number => cases h'; rfl
  | stringWriter ops t h => cases h' with | stringWriter _ t' h' => rw [enc_inj (h.1.symm.trans h'.1)]

theorem denotes_not_rejected {op : WOp} {v : JVal} (h : Denotes op v) : ¬ Rejected op := by
  intro hr
  cases hr <;> cases h
  contradiction

theorem denotes_not_unfinished {op : WOp} {v : JVal} {t : Text} (h : Denotes op v) : ¬ Unfinished op t := by
  intro hu
  cases hu with
  | notCalled => cases h
  | invalid _ _ _ hno => cases h with | stringWriter _ u hu => exact hno ⟨u, hu⟩

/-- a call can only have one result (except for the text of an unfinished string value, which depends on where the error is detected) -/
theorem step_unique {w w1 w2 : Written} {op : WOp} (h1 : Step st w op w1) (h2 : Step st w op w2) : Like w1 w2 := by
  cases h1 with
  | value hc hd =>
    cases h2 with
    | value _ hd' => rw [denotes_unique hd hd']; exact .refl _
    | rejected hr => exact absurd hr (denotes_not_rejected hd)
    | unfinished _ hu => exact absurd hu (denotes_not_unfinished hd)
    | _ => cases hd
  | rejected hr =>
    cases h2 with
    | value _ hd => exact absurd hr (denotes_not_rejected hd)
    | rejected => exact .refl _
    | unfinished _ hu => cases hr <;> cases hu
    | _ => cases hr
  | unfinished hc hu =>
    cases h2 with
    | value _ hd => exact absurd hu (denotes_not_unfinished hd)
    | rejected hr => cases hr <;> cases hu
    | unfinished _ _ => exact ⟨rfl, rfl, rfl⟩
    | _ => cases hu
  | beginArray hc =>
    cases h2 with
    | value _ hd => cases hd
    | rejected hr => cases hr
    | unfinished _ hu => cases hu
    | beginArray => exact .refl _
  | beginObject hc =>
    cases h2 with
    | value _ hd => cases hd
    | rejected hr => cases hr
    | unfinished _ hu => cases hu
    | beginObject => exact .refl _
  | endArray =>
    cases h2 with
    | value _ hd => cases hd
    | rejected hr => cases hr
    | unfinished _ hu => cases hu
    | endArray => exact .refl _
  | endObject =>
    cases h2 with
    | value _ hd => cases hd
    | rejected hr => cases hr
    | unfinished _ hu => cases hu
    | endObject => exact .refl _
  | name =>
    cases h2 with
    | value _ hd => cases hd
    | rejected hr => cases hr
    | unfinished _ hu => cases hu
    | name => exact .refl _
  | finish =>
    cases h2 with
    | value _ hd => cases hd
    | rejected hr => cases hr
    | unfinished _ hu => cases hu
    | finish => exact .refl _

/-- while a string value is not finished only the calls which are rejected anyway are allowed -/
theorem step_unfinished {w w1 : Written} {op : WOp} (hw : w.str.isSome = true) (h : Step st w op w1) : Rejected op ∧ w1 = w := by
  cases h with
  | value hc _ => rw [hc.1] at hw; cases hw
  | rejected hr => exact ⟨hr, rfl⟩
  | unfinished hc _ => rw [hc.1] at hw; cases hw
  | beginArray hc => rw [hc.1] at hw; cases hw
  | beginObject hc => rw [hc.1] at hw; cases hw
  | endArray => cases hw
  | endObject => cases hw
  | name => cases hw
  | finish => cases hw

theorem step_like {w w' w1 : Written} {op : WOp} (hl : Like w w') (h : Step st w op w1) : ∃ w1', Step st w' op w1' ∧ Like w1 w1' := by
  cases hs : w.str with
  | none => rw [← like_eq hl hs]; exact ⟨w1, h, .refl _⟩
  | some t =>
    obtain ⟨h1, rfl⟩ := step_unfinished (by rw [hs]; rfl) h
    exact ⟨w', .rejected h1, hl⟩

theorem steps_like {w w' w1 : Written} {ops : List WOp} (hl : Like w w') (h : Steps st w ops w1) : ∃ w1', Steps st w' ops w1' ∧ Like w1 w1' := by
  induction h generalizing w' with
  | nil => exact ⟨w', .nil, hl⟩
  | cons h1 _ ih =>
    obtain ⟨w1', h3, h4⟩ := step_like hl h1
    obtain ⟨w2', h5, h6⟩ := ih h4
    exact ⟨w2', .cons h3 h5, h6⟩

theorem steps_append {w w' : Written} {a b : List WOp} : Steps st w (a ++ b) w' ↔ ∃ w1, Steps st w a w1 ∧ Steps st w1 b w' := by
  induction a generalizing w with
  | nil => exact ⟨fun h => ⟨w, .nil, h⟩, by rintro ⟨_, ⟨⟩, h⟩; exact h⟩
  | cons op a ih =>
    constructor
    · rintro (_ | ⟨h1, h2⟩)
      obtain ⟨w1, h3, h4⟩ := ih.1 h2
      exact ⟨w1, .cons h1 h3, h4⟩
    · rintro ⟨w1, _ | ⟨h1, h2⟩, h3⟩
      exact .cons h1 (ih.2 ⟨w1, h2, h3⟩)

theorem steps_unique {w w1 w2 : Written} {ops : List WOp} (h1 : Steps st w ops w1) (h2 : Steps st w ops w2) : Like w1 w2 := by
  induction h1 generalizing w2 with
  | nil => cases h2; exact .refl _
  | cons ha _ ih =>
    cases h2 with
    | cons hb h2 =>
      obtain ⟨w3, h3, h4⟩ := steps_like (step_unique hb ha) h2
      have := ih h3
      exact ⟨this.1.trans h4.1.symm, this.2.1.trans h4.2.1.symm, this.2.2.trans h4.2.2.symm⟩

theorem WOk.steps {w w' : Written} {ops : List WOp} (h : WOk st w) (hs : Steps st w ops w') : WOk st w' := by
  induction hs with
  | nil => exact h
  | cons h1 _ ih => exact ih (h.step h1)

/-! ## Sequences -/

/-- the result of a call is an error exactly if a number is rejected -/
def ResOk (op : WOp) (r : Except WErr WOut) : Prop :=
  (Rejected op ∧ r = .error .invalidNumber) ∨ (¬ Rejected op ∧ ∃ out, r = .ok out ∧ (out = .unit ∨ ∃ ops fin, op = .stringValueWriter ops fin))

def ResOks : List WOp → List (Except WErr WOut) → Prop
  | [], [] => True
  | op :: ops, r :: rs => ResOk op r ∧ ResOks ops rs
  | _, _ => False

theorem finish_flushed {c c' : Core} {bs : Bytes} {out : WOut} (h : Emits (wop .finishDocument) c bs out c') (b : Bool) :
    ((wop .finishDocument).run c).flushed b = true := by
  unfold Emits at h
  show ((T.run (finishDocument >>= fun _ => pure WOut.unit) c)).flushed b = true
  have h' : ((T.run (finishDocument >>= fun _ => pure WOut.unit) c)).ideal = _ := h
  unfold finishDocument at h' ⊢
  revert h'
  show (T.run ((if c.stringWriterActive = true then T.usage .finishStringWriterActive
    else if c.expectsMemberName = true then T.usage .finishNameExpected
    else if c.stack.isEmpty = true then (if c.isEmpty = true then T.usage .finishNothingWritten else T.flush) else T.usage .finishNotFinished : W Unit) >>= fun _ => pure WOut.unit) c).ideal = _ →
    (T.run ((if c.stringWriterActive = true then T.usage .finishStringWriterActive
    else if c.expectsMemberName = true then T.usage .finishNameExpected
    else if c.stack.isEmpty = true then (if c.isEmpty = true then T.usage .finishNothingWritten else T.flush) else T.usage .finishNotFinished : W Unit) >>= fun _ => pure WOut.unit) c).flushed b = true
  split
  · intro h; cases h
  · split
    · intro h; cases h
    · split
      · split
        · intro h; cases h
        · intro _; rfl
      · intro h; cases h

theorem wops_cons_ok {o : WOp} {os : List WOp} {c c' c'' : Core} {bs bs' : Bytes} {x : WOut} {rs : List (Except WErr WOut)} (ho : o ≠ .finishDocument) (h : Emits (wop o) c bs x c')
    (h' : Emits (wops os) c' bs' rs c'') : Emits (wops (o :: os)) c (bs ++ bs') (.ok x :: rs) c'' := by
  unfold Emits at *
  rw [wops, ideal_bind, h]
  dsimp only
  rw [if_neg ho, ideal_bind, h']
  dsimp only
  rw [Tree.ideal, List.append_nil]

theorem wops_cons_ok_panic {o : WOp} {os : List WOp} {c c' : Core} {bs bs' : Bytes} {x : WOut} {p : WPanic} (ho : o ≠ .finishDocument) (h : Emits (wop o) c bs x c')
    (h' : Panics (wops os) c' bs' p) : Panics (wops (o :: os)) c (bs ++ bs') p := by
  unfold Emits Panics at *
  rw [wops, ideal_bind, h]
  dsimp only
  rw [if_neg ho, ideal_bind, h']

theorem wops_cons_finish {os : List WOp} {c c' : Core} {bs : Bytes} {x : WOut} (h : Emits (wop .finishDocument) c bs x c') :
    Emits (wops (.finishDocument :: os)) c bs [.ok x] c' := by
  unfold Emits at *
  rw [wops, ideal_bind, h]
  dsimp only
  rw [if_pos rfl, Tree.ideal, List.append_nil]

theorem wops_cons_rejected {o : WOp} {os : List WOp} {c c' c'' : Core} {bs : Bytes} {rs : List (Except WErr WOut)} (h : Errs (wop o) c [] .invalidNumber c')
    (h' : Emits (wops os) c' bs rs c'') : Emits (wops (o :: os)) c bs (.error .invalidNumber :: rs) c'' := by
  unfold Emits Errs at *
  rw [wops, ideal_bind, h]
  dsimp only
  rw [if_pos rfl, ideal_bind, h']
  dsimp only
  rw [Tree.ideal, List.append_nil, List.nil_append]

theorem wops_cons_rejected_panic {o : WOp} {os : List WOp} {c c' : Core} {bs : Bytes} {p : WPanic} (h : Errs (wop o) c [] .invalidNumber c')
    (h' : Panics (wops os) c' bs p) : Panics (wops (o :: os)) c bs p := by
  unfold Panics Errs at *
  rw [wops, ideal_bind, h]
  dsimp only
  rw [if_pos rfl, ideal_bind, h']
  rfl

theorem wops_cons_panic {o : WOp} {os : List WOp} {c : Core} {bs : Bytes} {p : WPanic} (h : Panics (wop o) c bs p) : Panics (wops (o :: os)) c bs p := by
  unfold Panics at *
  rw [wops, ideal_bind, h]

/-- `finish_document` consumes the writer, so there is nothing behind it -/
def FinishLast (ops : List WOp) : Prop := ∀ op ∈ ops.dropLast, op ≠ .finishDocument

/-- What a sequence of calls does if the underlying `Write` does not fail -/
inductive SeqOutcome (st : WSettings) (c : Core) (w : Written) (ops : List WOp) : Prop
  | done (w' : Written) (rs : List (Except WErr WOut)) (bs : Bytes) (c' : Core) : Steps st w ops w' → Emits (wops ops) c bs rs c' →
      w'.bytes st = w.bytes st ++ bs → WInv st c' w' → ResOks ops rs →
      (ops.getLast? = some .finishDocument → ∀ b, ((wops ops).run c).flushed b = true) → SeqOutcome st c w ops
  | panic (pre : List WOp) (op : WOp) (post : List WOp) (w' : Written) (u : WUsage) (bs : Bytes) : ops = pre ++ op :: post → Steps st w pre w' →
      (¬ ∃ w'', Step st w' op w'') → Panics (wops ops) c bs (.usage u) → w'.bytes st = w.bytes st ++ bs → (∃ rs c', Emits (wops pre) c bs rs c') → SeqOutcome st c w ops

theorem wops_outcome (ops : List WOp) {c : Core} {w : Written} (h : WInv st c w) (hok : WOk st w) (hop : ∀ op ∈ ops, OpOk op) (hfin : FinishLast ops) : SeqOutcome st c w ops := by
  induction ops generalizing c w with
  | nil => exact .done w [] [] c .nil (by rw [wops]; exact emits_pure) (by simp) h trivial nofun
  | cons op ops ih =>
    have hop' := fun op' h' => hop op' (List.mem_cons_of_mem _ h')
    have hfin' : FinishLast ops := by
      intro op' h'
      cases ops with
      | nil => cases h'
      | cons o os => exact hfin op' (by rw [List.dropLast_cons_cons]; exact List.mem_cons_of_mem _ h')
    cases wop_outcome h hok op (hop op (List.mem_cons_self ..)) with
    | done w1 out bs c1 h1 h2 h3 h4 h5 h6 =>
      by_cases hf : op = .finishDocument
      · have hnil : ops = [] := by
          cases ops with
          | nil => rfl
          | cons o os => exact absurd hf (hfin op (by rw [List.dropLast_cons_cons]; exact List.mem_cons_self ..))
        subst hf hnil
        refine .done w1 [.ok out] bs c1 (.cons h1 .nil) (wops_cons_finish h2) h3 h4 ⟨.inr ⟨h5, out, rfl, h6⟩, trivial⟩ fun _ b => ?_
        rw [wops, flushed_bind]
        unfold Emits at h2
        rw [h2]
        dsimp only
        rw [if_pos rfl, Tree.flushed]
        exact finish_flushed h2 b
      · cases ih h4 (hok.step h1) hop' hfin' with
        | done w' rs bs' c' s1 s2 s3 s4 s5 s6 =>
          refine .done w' _ _ c' (.cons h1 s1) (wops_cons_ok hf h2 s2) (by rw [s3, h3, List.append_assoc]) s4 ⟨.inr ⟨h5, out, rfl, h6⟩, s5⟩ fun hl b => ?_
          rw [wops, flushed_bind]
          unfold Emits at h2 s2
          rw [h2]
          dsimp only
          rw [if_neg hf, flushed_bind, s2]
          dsimp only
          rw [Tree.flushed]
          cases ops with
          | nil => simp at hl; exact absurd hl hf
          | cons o os => exact s6 (by rw [List.getLast?_cons_cons] at hl; exact hl) _
        | panic pre o post w' u bs' s1 s2 s3 s4 s5 s6 =>
          obtain ⟨rs, c', s6⟩ := s6
          refine .panic (op :: pre) o post w' u _ (by rw [s1]; rfl) (.cons h1 s2) s3 (wops_cons_ok_panic hf h2 s4) (by rw [s5, h3, List.append_assoc]) ⟨_, _, wops_cons_ok hf h2 s6⟩
    | rejected h1 h2 =>
      have hf : op ≠ .finishDocument := by rintro rfl; cases h1
      cases ih h hok hop' hfin' with
      | done w' rs bs' c' s1 s2 s3 s4 s5 s6 =>
        refine .done w' _ _ c' (.cons (.rejected h1) s1) (wops_cons_rejected h2 s2) s3 s4 ⟨.inl ⟨h1, rfl⟩, s5⟩ fun hl b => ?_
        rw [wops, flushed_bind]
        unfold Errs at h2
        unfold Emits at s2
        rw [h2]
        dsimp only
        rw [if_pos rfl, flushed_bind, s2]
        dsimp only
        rw [Tree.flushed]
        cases ops with
        | nil => simp at hl; exact absurd hl hf
        | cons o os => exact s6 (by rw [List.getLast?_cons_cons] at hl; exact hl) _
      | panic pre o post w' u bs' s1 s2 s3 s4 s5 s6 =>
        obtain ⟨rs, c', s6⟩ := s6
        exact .panic (op :: pre) o post w' u _ (by rw [s1]; rfl) (.cons (.rejected h1) s2) s3 (wops_cons_rejected_panic h2 s4) s5 ⟨_, _, wops_cons_rejected h2 s6⟩
    | panic u h1 h2 => exact .panic [] op ops w u [] rfl .nil h2 (wops_cons_panic h1) (by simp) ⟨[], c, by rw [wops]; exact emits_pure⟩

/-! ## Every state can be completed -/

/-- For everything which has been written there is a state of the writer -/
theorem exists_core (st : WSettings) (w : Written) : ∃ c, WInv st c w :=
  ⟨⟨emptyOf w.tops w.frames, expects w.frames, w.frames.map kind, w.str.isSome, if st.prettyPrint then level w.frames else 0, st, .new⟩, rfl, rfl, fun _ => ⟨rfl, rfl, rfl, rfl, rfl⟩⟩

theorem written_complete {st : WSettings} {w : Written} (h : WOk st w) (hs : w.str = none) :
    ∃ tops, WOk st ⟨tops, [], none⟩ ∧ (tops ≠ [] ∨ w.tops = [] ∧ w.frames = []) ∧ w.bytes st <+: WSpec.topsBytes st tops := by
  obtain ⟨tops, frames, str⟩ := w
  dsimp only at hs
  subst hs
  generalize hn : frames.length = n
  induction n generalizing tops frames with
  | zero =>
    have := List.length_eq_zero_iff.1 hn
    subst this
    refine ⟨tops, h, ?_, ?_⟩
    · cases tops with
      | nil => exact .inr ⟨rfl, rfl⟩
      | cons => exact .inl nofun
    · simp [Written.bytes, WSpec.framesBytes]
  | succ n ih =>
    cases frames with
    | nil => cases hn
    | cons f fs =>
      have hok := h.frames
      -- complete the innermost container
      have key : ∀ v, JOk v → Written.bytes st ⟨tops, f :: fs, none⟩ <+: (Written.add ⟨tops, fs, none⟩ v).bytes st → ∃ tops', WOk st ⟨tops', [], none⟩ ∧
          (tops' ≠ [] ∨ tops = [] ∧ f :: fs = []) ∧ Written.bytes st ⟨tops, f :: fs, none⟩ <+: WSpec.topsBytes st tops' := by
        intro v hv hp
        have hok' : WOk st (Written.add ⟨tops, fs, none⟩ v) := WOk.add ⟨h.tops, h.single, hok.2.2, fun h => absurd rfl h⟩ hok.1 hv
        have hstr : (Written.add ⟨tops, fs, none⟩ v).str = none := by unfold Written.add; split <;> rfl
        have hlen : (Written.add ⟨tops, fs, none⟩ v).frames.length = n := by
          have hfs : fs.length = n := by simpa using hn
          rw [← hfs]
          match fs with
          | [] => rfl
          | .arr _ :: _ => rfl
          | .obj _ (some _) :: _ => rfl
          | .obj _ none :: _ => rfl
        have hne : ¬ ((Written.add ⟨tops, fs, none⟩ v).tops = [] ∧ (Written.add ⟨tops, fs, none⟩ v).frames = []) := by
          match fs with
          | [] => intro h; exact absurd h.1 (by simp [Written.add])
          | .arr _ :: _ => exact fun h => nomatch h.2
          | .obj _ (some _) :: _ => exact fun h => nomatch h.2
          | .obj _ none :: _ => exact fun h => nomatch h.2
        generalize Written.add ⟨tops, fs, none⟩ v = w' at *
        obtain ⟨t', f', s'⟩ := w'
        dsimp only at hstr
        subst hstr
        obtain ⟨tops', e1, e2, e3⟩ := ih t' f' hok' hlen
        rcases e2 with e2 | e2
        · exact ⟨tops', e1, .inl e2, hp.trans e3⟩
        · exact absurd e2 hne
      have hobj : ∀ ms, JOkm ms → Written.bytes st ⟨tops, .obj ms none :: fs, none⟩ <+: (Written.add ⟨tops, fs, none⟩ (.obj ms)).bytes st := by
        intro ms hms
        rw [WSpec.add_bytes hok.1, WSpec.cst, Cst.bytes, WSpec.members_bytes]
        refine ⟨(WSpec.close st fs.length (true && ms.isEmpty)).bytes ++ [0x7D], ?_⟩
        simp [Written.bytes, WSpec.framesBytes, WSpec.Frame.bytes]
      match f, hok, key with
      | .arr vs, hok, key =>
        refine key (.arr vs) hok.2.1 ?_
        rw [WSpec.add_bytes hok.1, WSpec.cst, Cst.bytes, WSpec.items_bytes]
        refine ⟨(WSpec.close st fs.length (true && vs.isEmpty)).bytes ++ [0x5D], ?_⟩
        simp [Written.bytes, WSpec.framesBytes, WSpec.Frame.bytes]
      | .obj ms none, hok, key => exact key (.obj ms) hok.2.1 (hobj ms hok.2.1)
      | .obj ms (some n), hok, key =>
        have hj : JOkm (ms ++ [(n, .null)]) := jokm_append hok.2.1 trivial
        refine key (.obj (ms ++ [(n, JVal.null)])) hj (List.IsPrefix.trans ?_ (hobj _ hj))
        have := WSpec.add_bytes (st := st) (w := ⟨tops, .obj ms (some n) :: fs, none⟩) ⟨rfl, trivial⟩ .null
        show _ <+: (Written.add ⟨tops, .obj ms (some n) :: fs, none⟩ .null).bytes st
        rw [this]
        exact List.prefix_append _ _

/-- The output at any time is the beginning of valid output -/
theorem written_prefix {st : WSettings} {w : Written} (h : WOk st w) : ∃ tops, WOk st ⟨tops, [], none⟩ ∧ tops ≠ [] ∧ w.bytes st <+: WSpec.topsBytes st tops := by
  have main : ∀ w : Written, WOk st w → w.str = none → ∃ tops, WOk st ⟨tops, [], none⟩ ∧ tops ≠ [] ∧ w.bytes st <+: WSpec.topsBytes st tops := by
    intro w h hs
    obtain ⟨tops, h1, h2, h3⟩ := written_complete h hs
    rcases h2 with h2 | ⟨h4, h5⟩
    · exact ⟨tops, h1, h2, h3⟩
    · refine ⟨[.null], ⟨⟨trivial, trivial⟩, .inl (Nat.le_refl _), trivial, fun h => absurd rfl h⟩, nofun, ?_⟩
      obtain ⟨t, f, s⟩ := w
      dsimp only at h4 h5 hs
      subst h4 h5 hs
      exact List.nil_prefix
  cases hs : w.str with
  | none => exact main w h hs
  | some t =>
    obtain ⟨tops, frames, str⟩ := w
    dsimp only at hs
    subst hs
    have hc : Written.CanAdd st ⟨tops, frames, none⟩ := h.str nofun
    have hok : WOk st (Written.add ⟨tops, frames, none⟩ (.str t)) := WOk.add ⟨h.tops, h.single, h.frames, fun h => absurd rfl h⟩ hc trivial
    have hstr : (Written.add ⟨tops, frames, none⟩ (.str t)).str = none := by unfold Written.add; split <;> rfl
    obtain ⟨tops', h1, h2, h3⟩ := main _ hok hstr
    refine ⟨tops', h1, h2, List.IsPrefix.trans ?_ h3⟩
    rw [WSpec.add_bytes hc, WSpec.cst, Cst.bytes]
    refine ⟨[0x22], ?_⟩
    simp [Written.bytes, Str.bytes]

end Verif.Writer
