import Verif.Proofs.NoPath.Number
/-! # Sequences of method calls with and without path tracking -/

namespace Verif.NoPath
open Reader

abbrev I {α : Type} (m : R AbsSrc α) : Prop := Er false false m m

theorem peek_er : I peek := by
  have := @pi_er false; have h := fun k => @mapPeeked_er false k
  unfold peek; er; exact h _

theorem beginArray_er : I beginArray := by
  have := @containerStart_er false .array .array
  unfold beginArray; er

theorem beginObject_er : I beginObject := by
  have := @containerStart_er false .object .object
  unfold beginObject; er

theorem endArray_er : I endArray := by
  have := @pi_er false; have := @consumePeeked_er false; have := @onContainerEnd_er false
  unfold endArray; er

theorem endObject_er : I endObject := by
  have := @pi_er false; have := @consumePeeked_er false; have := @onContainerEnd_er false
  unfold endObject; er

theorem hasNext_er : I hasNext := by
  have := @pi_er false; have := @pio_er false
  unfold hasNext; er

theorem beforeName_er : I beforeName := by
  have := hasNext_er; have := @consumePeeked_er false
  unfold beforeName; er

theorem setPathName_left {p : Bool} {n : Text} : Er p p (setPathName n) (pure ()) := by
  rintro s _ ⟨acc, ha, rfl⟩
  rcases s with ⟨c, k, e, m, st, sr, l, cl, b, pa, se⟩
  rcases pa with _ | _ | ⟨_ | _, pa⟩
  · exact ⟨rfl, acc, ha, rfl⟩
  · exact .inl ⟨_, rfl⟩
  · exact .inl ⟨_, rfl⟩
  · exact ⟨rfl, acc, ha, rfl⟩

theorem setPathName_er {p : Bool} {n : Text} : Er p p (setPathName n) (setPathName n) := by
  rintro s _ ⟨acc, ha, rfl⟩
  exact setPathName_left s _ ⟨acc, ha, rfl⟩

theorem nextNameOwned_er : I nextNameOwned := by
  unfold nextNameOwned
  exact Er.bind beforeName_er fun _ => Er.bind readString_er fun _ => Er.bind (q := false) getStr_er fun _ => Er.bind setPathName_er fun _ => Er.pure _

theorem getStrPeek_left {p : Bool} {f : Text → R AbsSrc Unit} {m' : R AbsSrc Unit} (h : ∀ t, Er p p (f t) m') : Er p p (liftS AbsSrc.getStrPeek >>= f) m' := by
  refine ErG.left (Q := Rl p) ?_ h
  rintro s _ ⟨acc, ha, rfl⟩
  unfold liftS AbsSrc.getStrPeek
  dsimp only
  cases Utf8.toStrUnchecked s.src.acc with
  | some t => exact ⟨acc, ha, rfl⟩
  | none => exact ⟨_, rfl⟩

theorem nextName_er : I nextName := by
  unfold nextName
  refine Er.bind beforeName_er fun _ => Er.bind readString_er fun _ => ?_
  rintro s _ ⟨acc, ha, rfl⟩
  show RE (Rl false) (Rl false) (((if s.path.isSome then do
    let name ← liftS AbsSrc.getStrPeek
    setPathName name
  else pure ()) >>= fun _ => liftS AbsSrc.getStr).run s) ((pure () >>= fun _ => liftS AbsSrc.getStr : R AbsSrc Text).run (E acc s))
  refine Er.bind (p := true) (q := true) ?_ (fun _ => getStr_er) _ _ ⟨acc, ha, rfl⟩
  split
  · exact getStrPeek_left fun _ => setPathName_left
  · exact Er.pure _

theorem new_left {α : Type} {q : Bool} {m m' : R AbsSrc α} (h : Er false q m m') : Er false q (do liftS AbsSrc.vNew; m) m' :=
  ErG.left (Q := Rl false) (fun _ _ ⟨acc, _, h⟩ => ⟨acc, nofun, h⟩) fun _ => h

theorem getStr_left {α : Type} {q : Bool} {f : Text → R AbsSrc α} {m' : R AbsSrc α} (h : ∀ t, Er false q (f t) m') : Er false q (liftS AbsSrc.getStr >>= f) m' := by
  refine ErG.left (Q := Rl false) ?_ h
  rintro s _ ⟨acc, ha, rfl⟩
  unfold liftS AbsSrc.getStr
  dsimp only
  cases Utf8.toStrUnchecked s.src.acc with
  | some t => exact ⟨acc, nofun, rfl⟩
  | none => exact ⟨_, rfl⟩

theorem fuelled {α : Type} {q : Bool} {f f' : Nat → R AbsSrc α} (h : ∀ n, Er false q (f n) (f' n)) : Er false q (M.get >>= fun s => f (fuel s)) (M.get >>= fun s => f' (fuel s)) := by
  rintro s _ ⟨acc, ha, rfl⟩
  exact h (fuel s) s _ ⟨acc, ha, rfl⟩

theorem readString_skipAll : Er false false (readString false) skipAllStringBytes := by
  unfold readString skipAllStringBytes
  exact new_left (fuelled readString_skip)

theorem skipName_both : Er false false (do
    readString false
    let name ← liftS AbsSrc.getStr
    setPathName name) skipAllStringBytes := by
  have : Er false false (do
    readString false
    let name ← liftS AbsSrc.getStr
    setPathName name) (skipAllStringBytes >>= fun _ => pure ()) :=
    Er.bind readString_skipAll fun _ => getStr_left fun _ => setPathName_left
  rw [show (skipAllStringBytes >>= fun _ => pure () : R AbsSrc Unit) = skipAllStringBytes from bind_pure _] at this
  exact this

theorem ite_run {α : Type} {q : Bool} {c : Bool} {a b m' : R AbsSrc α} (ha : Er false q a m') (hb : Er false q b m') : Er false q (if c then a else b) m' := by
  cases c
  · exact hb
  · exact ha

theorem skipName_er : I skipName := by
  unfold skipName
  refine Er.bind beforeName_er fun _ => ?_
  rintro s _ ⟨acc, ha, rfl⟩
  exact ite_run (c := s.path.isSome) skipName_both skipStr_er s _ ⟨acc, ha, rfl⟩

theorem nextBool_er : I nextBool := by
  have := @sev_er false .boolean false; have := @onValueEnd_er false
  unfold nextBool; er

theorem nextNull_er : I nextNull := by
  have := @sev_er false .null false; have := @onValueEnd_er false
  unfold nextNull; er

theorem nextString_er : I nextString :=
  Er.bind sev_er fun _ => Er.bind readString_er fun _ => Er.bind (q := false) getStr_er fun _ => Er.bind onValueEnd_er fun _ => Er.pure _

theorem nextStr_er : I nextStr :=
  Er.bind sev_er fun _ => Er.bind readString_er fun _ => Er.bind onValueEnd_er fun _ => getStr_er

theorem nextNumberAsString_er : I nextNumberAsString := Er.bind readNumberBytes_er fun _ => getStr_er
theorem nextNumberAsStr_er : I nextNumberAsStr := Er.bind readNumberBytes_er fun _ => getStr_er

theorem skipValueStart_er : I skipValueStart := by
  have := peek_er; have := beginArray_er; have := beginObject_er; have := @sev_er false .string false; have := @skipStr_er false
  have := @onValueEnd_er false; have := @skipNumber_er false; have := nextBool_er; have := nextNull_er
  unfold skipValueStart; er

theorem endContainer_er : I endContainer := by
  have := endArray_er; have := endObject_er
  unfold endContainer; er

theorem skipNameIfExpected_er : I skipNameIfExpected := by
  have := skipName_er
  unfold skipNameIfExpected; er

theorem atContainerEnd_er {d : Nat} : I (atContainerEnd d) := by
  have := hasNext_er
  unfold atContainerEnd; er

theorem skipValueLoop_er : ∀ n d, I (skipValueLoop n d)
  | 0, _ => Er.fuel
  | n + 1, d => by
    have ih := fun d => skipValueLoop_er n d
    have := @atContainerEnd_er d; have := endContainer_er; have := skipNameIfExpected_er; have := skipValueStart_er
    unfold skipValueLoop; er <;> exact ih _

theorem skipValue_er : I skipValue := by
  unfold skipValue; er; exact skipValueLoop_er _ _

theorem skipItems_er : ∀ n, I (skipItems n)
  | 0 => Er.fuel
  | n + 1 => by
    have := skipItems_er n; have := hasNext_er; have := skipValue_er
    unfold skipItems; er

theorem skipMembers_er : ∀ n, I (skipMembers n)
  | 0 => Er.fuel
  | n + 1 => by
    have := skipMembers_er n; have := hasNext_er; have := skipValue_er; have := skipName_er
    unfold skipMembers; er

theorem finishArray_er : I finishArray := by
  have := endArray_er
  unfold finishArray; er; exact skipItems_er _

theorem finishObject_er : I finishObject := by
  have := endObject_er
  unfold finishObject; er; exact skipMembers_er _

theorem skipToTopLevelLoop_er : ∀ n, I (skipToTopLevelLoop n)
  | 0 => by unfold skipToTopLevelLoop; er
  | n + 1 => by
    have := skipToTopLevelLoop_er n; have := finishArray_er; have := finishObject_er
    unfold skipToTopLevelLoop; er

theorem skipToTopLevel_er : I skipToTopLevel := by
  have := skipValue_er
  unfold skipToTopLevel; er; exact skipToTopLevelLoop_er _

theorem consumeTrailingWhitespace_er : I consumeTrailingWhitespace := by
  have := @ws_er false none
  unfold consumeTrailingWhitespace; er

theorem seekItems_er {i : Nat} : ∀ n, I (seekItems i n)
  | 0 => by have := hasNext_er; unfold seekItems; er
  | n + 1 => by
    have := seekItems_er (i := i) n; have := hasNext_er; have := skipValue_er
    unfold seekItems; er

theorem seekMembers_er {t : Text} : ∀ n, I (seekMembers t n)
  | 0 => Er.fuel
  | n + 1 => by
    have := seekMembers_er (t := t) n; have := hasNext_er; have := skipValue_er; have := nextName_er
    unfold seekMembers; er

theorem seekToLoop_er : ∀ ps, I (seekToLoop ps)
  | [] => Er.pure _
  | k :: ps => by
    have h : I (seekToPiece k) := by
      cases k with
      | arrayItem i => exact Er.bind beginArray_er fun _ => seekItems_er _
      | objectMember n => exact Er.bind beginObject_er fun _ => Er.get (fun _ _ => rfl) fun _ => seekMembers_er _
    exact Er.bind h fun _ => seekToLoop_er ps

theorem seekTo_er {ps : List PathPiece} : I (seekTo ps) := Er.bind peek_er fun _ => seekToLoop_er ps

theorem seekBackLoop_er : ∀ ps, I (seekBackLoop ps)
  | [] => Er.pure _
  | .arrayItem _ :: ps => Er.bind finishArray_er fun _ => seekBackLoop_er ps
  | .objectMember _ :: ps => Er.bind finishObject_er fun _ => seekBackLoop_er ps

theorem nextStringReader_er : I nextStringReader := by
  have := @sev_er false .string false
  unfold nextStringReader; er

theorem strConsume_er {len : Nat} : ∀ bs sr out, I (strConsume len bs sr out)
  | [], _, _ => Er.pure _
  | b :: bs, sr, out => by
    have ih := fun sr out => strConsume_er (len := len) bs sr out
    unfold strConsume; er <;> exact ih _ _

theorem strReadLoop_er {len : Nat} : ∀ n sr out, I (strReadLoop len n sr out)
  | 0, _, _ => by unfold strReadLoop; er
  | n + 1, sr, out => by
    have ih := fun sr out => strReadLoop_er (len := len) n sr out
    have h := fun bs sr out => strConsume_er (len := len) bs sr out
    have := @strBytes_er false; have := @onValueEnd_er false
    unfold strReadLoop; er <;> first | exact h _ _ _ | exact ih _ _

theorem strReadImpl_er {len : Nat} {sr : StrReader} : I (strReadImpl len sr) := by
  have h := fun n sr out => strReadLoop_er (len := len) n sr out
  have : I (strDrain len sr) := by unfold strDrain; er
  unfold strReadImpl; er; exact h _ _ _

theorem strReadsOk_er : ∀ ls sr, I (strReadsOk ls sr)
  | [], _ => Er.pure _
  | l :: ls, sr => by
    have ih := fun sr => strReadsOk_er ls sr
    have := strReadImpl_er (len := l) (sr := sr)
    unfold strReadsOk; er; exact ih _

/-- all methods except `current_position` -/
theorem runOp_er (op : Reader.Op) (h : ∀ b, op ≠ .currentPosition b) : I (runOp op) := by
  cases op with
  | currentPosition b => exact absurd rfl (h b)
  | peek => exact Er.bind peek_er fun _ => Er.pure _
  | beginArray => exact Er.bind beginArray_er fun _ => Er.pure _
  | endArray => exact Er.bind endArray_er fun _ => Er.pure _
  | beginObject => exact Er.bind beginObject_er fun _ => Er.pure _
  | endObject => exact Er.bind endObject_er fun _ => Er.pure _
  | nextName => exact Er.bind nextName_er fun _ => Er.pure _
  | nextNameOwned => exact Er.bind nextNameOwned_er fun _ => Er.pure _
  | nextString => exact Er.bind nextString_er fun _ => Er.pure _
  | nextStr => exact Er.bind nextStr_er fun _ => Er.pure _
  | stringReader lens => exact Er.bind nextStringReader_er fun _ => Er.bind (strReadsOk_er _ _) fun _ => Er.pure _
  | nextNumberAsStr => exact Er.bind nextNumberAsStr_er fun _ => Er.pure _
  | nextNumberAsString => exact Er.bind nextNumberAsString_er fun _ => Er.pure _
  | nextBool => exact Er.bind nextBool_er fun _ => Er.pure _
  | nextNull => exact Er.bind nextNull_er fun _ => Er.pure _
  | hasNext => exact Er.bind hasNext_er fun _ => Er.pure _
  | skipName => exact Er.bind skipName_er fun _ => Er.pure _
  | skipValue => exact Er.bind skipValue_er fun _ => Er.pure _
  | skipToTopLevel => exact Er.bind skipToTopLevel_er fun _ => Er.pure _
  | seekTo ps => exact Er.bind seekTo_er fun _ => Er.pure _
  | seekBack ps => exact Er.bind (seekBackLoop_er _) fun _ => Er.pure _
  | consumeTrailingWhitespace => exact Er.bind consumeTrailingWhitespace_er fun _ => Er.pure _

theorem bind_out {α : Type} {m : R AbsSrc α} {k : α → Out} (hk : ∀ a, (k a).noPath = k a) {s t : St} {o : Out}
    (h : (m >>= fun a => pure (k a) : R AbsSrc Out).run s = .ok o t) : o.noPath = o := by
  rw [M.run_bind] at h
  cases hm : m.run s with
  | ok a t => rw [hm] at h; cases h; exact hk _
  | err e t => rw [hm] at h; cases h

theorem runOp_out {op : Reader.Op} (h : ∀ b, op ≠ .currentPosition b) {s t : St} {o : Out} (hr : (runOp op).run s = .ok o t) : o.noPath = o := by
  cases op with
  | currentPosition b => exact absurd rfl (h b)
  | stringReader lens =>
    change (nextStringReader >>= fun sr => strReadsOk lens sr >>= fun (r : StrReader × List Bytes) => pure (.reads r.2) : R AbsSrc Out).run s = _ at hr
    rw [← bind_assoc] at hr
    exact bind_out (k := fun (r : StrReader × List Bytes) => Out.reads r.2) (fun _ => rfl) hr
  | _ => exact bind_out (fun _ => rfl) hr

theorem runOp_both {op : Reader.Op} {s s' : St} (h : Rl false s s') :
    match (runOp op).run s with
    | .ok o t => ∃ t', (runOp op).run s' = .ok o.noPath t' ∧ Rl false t t'
    | .err e t => Internal e ∨ ∃ t', (runOp op).run s' = .err e.noPath t' ∧ (e.fatal = false → Rl false t t') := by
  by_cases hc : ∃ b, op = .currentPosition b
  · obtain ⟨b, rfl⟩ := hc
    obtain ⟨acc, ha, rfl⟩ := h
    refine ⟨E acc s, ?_, acc, ha, rfl⟩
    cases b <;> rfl
  · have hn : ∀ b, op ≠ .currentPosition b := fun b hb => hc ⟨b, hb⟩
    have h1 := runOp_er op hn s s' h
    cases hr : (runOp op).run s with
    | ok o t =>
      rw [hr] at h1
      cases hr' : (runOp op).run s' with
      | ok o' t' =>
        rw [hr'] at h1
        obtain ⟨rfl, h1⟩ := h1
        exact ⟨t', by rw [runOp_out hn hr], h1⟩
      | err e t' => rw [hr'] at h1; exact h1.elim
    | err e t => rw [hr] at h1; exact h1

theorem fatal_noPath (e : RErr) : e.noPath.fatal = e.fatal := by cases e <;> rfl

theorem runOps_noPath : ∀ (ops : List Reader.Op) (s s' : St), Rl false s s' → (∀ i, Except.error (.panic (.internal i)) ∉ runOps ops s) →
    runOps ops s' = (runOps ops s).map resultNoPath
  | [], _, _, _, _ => rfl
  | op :: ops, s, s', h, hi => by
    have h1 := runOp_both (op := op) h
    unfold runOps at hi ⊢
    cases hr : (runOp op).run s with
    | ok o t =>
      rw [hr] at h1 hi
      obtain ⟨t', h1, h2⟩ := h1
      rw [h1]
      simp only [List.map_cons]
      refine congrArg (List.cons _) ?_
      split
      · rfl
      · rename_i hc
        refine runOps_noPath ops t t' h2 fun i hm => hi i ?_
        simp only [if_neg hc]
        exact List.mem_cons_of_mem _ hm
    | err e t =>
      rw [hr] at h1 hi
      rcases h1 with ⟨i, rfl⟩ | ⟨t', h1, h2⟩
      · exact absurd (List.mem_cons_self ..) (hi i)
      · rw [h1]
        simp only [List.map_cons, fatal_noPath]
        refine congrArg (List.cons _) ?_
        split
        · rfl
        · rename_i hc
          refine runOps_noPath ops t t' (h2 ?_) fun i hm => hi i ?_
          · cases hf : e.fatal with
            | false => rfl
            | true => rw [hf] at hc; exact absurd (by simp) hc
          · simp only [if_neg hc]
            exact List.mem_cons_of_mem _ hm

end Verif.NoPath
