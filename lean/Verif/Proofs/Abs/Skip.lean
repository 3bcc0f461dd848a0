import Verif.Proofs.Abs.Sound
/-! # Invariant: skipping, seeking and reading strings in pieces -/

namespace Verif.Abs
open Reader Utf8 Json

section
variable {st : Settings} {inp : Bytes} {g : Prop} {c c0 : Ctx} {p : Peeked} {l : Lead} {pos : Pos} {r : Bytes} {s : St}

/-! ## `skip_value` -/

/-- `c` is `n` levels inside of the value which is the next one in the context `c0` -/
inductive Open (c0 : Ctx) : Nat → Ctx → Prop
  | z : Open c0 0 c0
  | arr {n : Nat} {u : Ctx} (l : Lead) (d : List (Sep × Cst)) : Open c0 n u → Open c0 (n + 1) (.arr u l d)
  | obj {n : Nat} {u : Ctx} (l : Lead) (d : List Mem) : Open c0 n u → Open c0 (n + 1) (.obj u l d)
  | val {n : Nat} {u : Ctx} (l : Lead) (d : List Mem) (sp : Sep) (x : Str) : Open c0 n u → Open c0 (n + 1) (.val u l d sp x)

theorem Open.add {n : Nat} {v : Cst} (h : Open c0 (n + 1) c) : Open c0 (n + 1) (c.add l v) := by
  cases h with
  | arr l' d h => cases l <;> exact .arr _ _ h
  | obj l' d h => cases l <;> exact .obj _ _ h
  | val l' d sp x h => cases l <;> first | exact .obj _ _ h | exact .val _ _ _ _ h

theorem Open.notTop {n : Nat} (h : Open c0 (n + 1) c) : c.isTop = false := by cases h <;> rfl

theorem Ctx.add_isVal {v : Cst} (h : c.Slot l) : (c.add l v).isVal = false := by
  cases c <;> cases l <;> first | rfl | exact h.elim

theorem isTop_canPeek (h : c.isTop = false) : CanPeek st c := CanPeek.of_ne_top (by rintro _ rfl; exact Bool.noConfusion h)

/-- one step of the loop of `skip_value` in which a value is started -/
theorem skipValueStart_wp (h : At st inp g c s) (hc : CanPeek st c) (he : c.emn = false) :
    Wp skipValueStart s (fun k s' => (k = 0 ∧ ∃ v, VPost st inp g c s v s') ∨
      (k = 1 ∧ ∃ c' pos r, s' = stp st c' pos none r ∧ InvN st inp g c' pos r ∧ mu s' < mu s ∧ c'.isVal = false ∧
        ((∃ l, c' = .arr c l []) ∨ ∃ l, c' = .obj c l []))) (EOk st inp g fun _ => True) := by
  unfold skipValueStart
  refine Wp.bind' (peek_wp h hc he) ?_
  rintro t _ ⟨p, l, pos, r, hv, rfl, rfl, hP, hm⟩
  have hA : At st inp g c (stp st c pos (some p) r) := .p hP
  have vmono : ∀ {v : Cst} {s'}, VPost st inp g c (stp st c pos (some p) r) v s' → VPost st inp g c s v s' := by
    rintro v s' ⟨l, pos, r, h1, h2, h3, h4⟩
    exact ⟨l, pos, r, h1, h2, h3, by omega⟩
  cases hp : typeOf p with
  | array =>
    dsimp only
    refine Wp.bind' (beginArray_wp hA hc he) ?_
    rintro _ _ ⟨l, pos, r, rfl, hN, hm'⟩
    exact Wp.pure (.inr ⟨rfl, _, pos, r, rfl, hN, by omega, rfl, .inl ⟨l, rfl⟩⟩)
  | object =>
    dsimp only
    refine Wp.bind' (beginObject_wp hA hc he) ?_
    rintro _ _ ⟨l, pos, r, rfl, hN, hm'⟩
    exact Wp.pure (.inr ⟨rfl, _, pos, r, rfl, hN, by omega, rfl, .inr ⟨l, rfl⟩⟩)
  | string =>
    dsimp only
    exact skipString_wp (f := fun _ => pure 0) hA hc he trivial fun x s' _ h => Wp.pure (.inl ⟨rfl, _, vmono h⟩)
  | number =>
    dsimp only
    refine Wp.bind' (skipNumber_wp hA hc he) ?_
    rintro _ _ ⟨bs, _, h⟩
    exact Wp.pure (.inl ⟨rfl, _, vmono h⟩)
  | boolean =>
    dsimp only
    refine Wp.bind' (nextBool_wp hA hc he) ?_
    rintro b _ h
    exact Wp.pure (.inl ⟨rfl, _, vmono h⟩)
  | null =>
    dsimp only
    refine Wp.bind' (nextNull_wp hA hc he) ?_
    rintro b _ h
    exact Wp.pure (.inl ⟨rfl, _, vmono h⟩)

theorem atContainerEnd_zero : atContainerEnd (σ := AbsSrc) 0 = pure false := rfl
theorem atContainerEnd_succ (n : Nat) : atContainerEnd (σ := AbsSrc) (n + 1) = (do let b ← hasNext; pure (!b)) := rfl
theorem skipValueLoop_succ (fuel depth : Nat) : skipValueLoop (σ := AbsSrc) (fuel + 1) depth = (do
    let atEnd ← atContainerEnd depth
    let depth ← (if atEnd then do
      endContainer
      pure (depth - 1)
    else do
      skipNameIfExpected
      let d ← skipValueStart
      pure (depth + d))
    if depth == 0 then pure () else skipValueLoop fuel depth) := rfl

theorem At.emn (h : At st inp g c s) : s.expectsMemberName = c.emn := by cases h <;> rfl
theorem At.stack (h : At st inp g c s) : s.stack = c.stack := by cases h <;> rfl
theorem At.isEmpty (h : At st inp g c s) : s.isEmpty = c.isEmpty := by cases h <;> rfl
theorem At.settings (h : At st inp g c s) : s.settings = st := by cases h <;> rfl
theorem At.sra (h : At st inp g c s) : s.stringReaderActive = false := by cases h <;> rfl
theorem At.wf (h : At st inp g c s) : c.Wf := by cases h with
  | n h => exact h.wf
  | p h => exact h.wf

theorem fuel_mu (_ : At st inp g c s) : mu s < fuel s := by
  rw [fuel_eq]
  unfold mu
  split <;> omega

/-- the part of the loop which skips a name if necessary and starts a value -/
theorem skipElem_wp {β : Type} {f : Nat → R AbsSrc β} {Q : β → St → Prop} {n : Nat} (ho : Open c0 n c) (h : At st inp g c s) (hc : CanPeek st c) (he : n = 0 → c.emn = false)
    (H0 : ∀ c' s', At st inp g c' s' → mu s' < mu s → c'.isVal = false → (n = 0 → ∃ v, VPost st inp g c0 s v s') → (0 < n → Open c0 n c') → Wp (f 0) s' Q (EOk st inp g fun _ => True))
    (H1 : ∀ c' s', At st inp g c' s' → mu s' < mu s → c'.isVal = false → Open c0 (n + 1) c' → Wp (f 1) s' Q (EOk st inp g fun _ => True)) :
    Wp (do skipNameIfExpected; let d ← skipValueStart; f d : R AbsSrc β) s Q (EOk st inp g fun _ => True) := by
  have key : ∀ {c1 s1}, At st inp g c1 s1 → CanPeek st c1 → c1.emn = false → mu s1 ≤ mu s → (n = 0 → c1 = c0) → Open c0 n c1 →
      Wp (do let d ← skipValueStart; f d : R AbsSrc β) s1 Q (EOk st inp g fun _ => True) := by
    intro c1 s1 h1 hc1 he1 hm hn ho1
    refine Wp.bind' (skipValueStart_wp h1 hc1 he1) ?_
    rintro k s' (⟨rfl, v, hv⟩ | ⟨rfl, c', pos, r, rfl, hN, hm', hval, hcc⟩)
    · obtain ⟨l, pos, r, hsl, rfl, hN, hm'⟩ := hv
      refine H0 _ _ (.n hN.toInvN) (by omega) (Ctx.add_isVal hsl) ?_ ?_
      · intro hn0
        cases hn hn0
        exact ⟨v, l, pos, r, hsl, rfl, hN, by omega⟩
      · intro hn0
        cases n with
        | zero => omega
        | succ n => exact ho1.add
    · refine H1 _ _ (.n hN) (by omega) hval ?_
      rcases hcc with ⟨l, rfl⟩ | ⟨l, rfl⟩
      · exact .arr _ _ ho1
      · exact .obj _ _ ho1
  unfold skipNameIfExpected
  refine Wp.bind (Wp.get ?_)
  rw [h.emn]
  refine Wp.ite (fun hem => ?_) fun hem => ?_
  · cases c with
    | obj up lu d =>
      refine (skipName_wp h).post ?_
      rintro _ _ ⟨x, hx, sp, pos, r, rfl, hN, hm⟩
      refine key (.n hN) (isTop_canPeek rfl) rfl (by omega) (fun hn => ?_) ?_
      · exact Bool.noConfusion (he hn)
      · cases ho with
        | z => exact Bool.noConfusion (he rfl)
        | obj _ _ ho => exact .val _ _ _ _ ho
    | top => exact Bool.noConfusion hem
    | arr => exact Bool.noConfusion hem
    | val => exact Bool.noConfusion hem
  · refine Wp.pure (key h hc (by simpa using hem) (Nat.le_refl _) (fun hn => ?_) ho)
    subst hn
    cases ho
    rfl

theorem endContainer_wp (h : At st inp g c s) (hv : c.isVal = false) (ht : c.isTop = false) :
    Wp endContainer s (fun _ s' => ∃ u l v pos r, ((∃ d, c = .arr u l d) ∨ ∃ d, c = .obj u l d) ∧ u.Slot l ∧ s' = stp st (u.add l v) pos none r ∧
      InvX st inp g (u.add l v) pos r ∧ mu s' < mu s) (EOk st inp g fun _ => True) := by
  unfold endContainer
  refine Wp.get ?_
  cases c with
  | top => exact Bool.noConfusion ht
  | val => exact Bool.noConfusion hv
  | arr u l d =>
    rw [if_pos (by cases h <;> rfl)]
    refine (endArray_wp h).post ?_
    rintro _ _ ⟨cl, pos, r, h1, h2, h3, h4⟩
    exact ⟨u, l, _, pos, r, .inl ⟨d, rfl⟩, h1, h2, h3, h4⟩
  | obj u l d =>
    rw [if_neg (by cases h <;> exact Bool.false_ne_true)]
    refine (endObject_wp h).post ?_
    rintro _ _ ⟨cl, pos, r, h1, h2, h3, h4⟩
    exact ⟨u, l, _, pos, r, .inr ⟨d, rfl⟩, h1, h2, h3, h4⟩

theorem skipValueLoop_wp : ∀ {fuel n : Nat} {c : Ctx} {s : St}, Open c0 n c → At st inp g c s → CanPeek st c → (n = 0 → c.emn = false) → (0 < n → c.isVal = false) → mu s < fuel →
    Wp (skipValueLoop fuel n) s (fun _ s' => ∃ v, VPost st inp g c0 s v s') (EOk st inp g fun _ => True) := by
  intro fuel
  induction fuel with
  | zero => intro n c s _ _ _ _ _ h; omega
  | succ fuel ih =>
    intro n c s ho h hc he hv hf
    have vmono : ∀ {s1 s2 : St} {v : Cst}, mu s1 ≤ mu s → VPost st inp g c0 s1 v s2 → VPost st inp g c0 s v s2 := by
      rintro s1 s2 v hm ⟨l, pos, r, h1, h2, h3, h4⟩
      exact ⟨l, pos, r, h1, h2, h3, by omega⟩
    rw [skipValueLoop_succ]
    have elem : ∀ {s1 : St}, At st inp g c s1 → mu s1 ≤ mu s → Wp (do
        skipNameIfExpected
        let d ← skipValueStart
        if n + d == 0 then pure () else skipValueLoop fuel (n + d) : R AbsSrc Unit) s1 (fun _ s' => ∃ v, VPost st inp g c0 s v s') (EOk st inp g fun _ => True) := by
      intro s1 h1 hm1
      refine skipElem_wp ho h1 hc he ?_ ?_
      · intro c' s' h' hm hval hz hpos
        cases n with
        | zero =>
          obtain ⟨v, hv⟩ := hz rfl
          exact Wp.pure ⟨v, vmono hm1 hv⟩
        | succ n =>
          rw [if_neg (by simp)]
          refine (ih (hpos (by omega)) h' (isTop_canPeek (hpos (by omega)).notTop) (by omega) (fun _ => hval) (by omega)).post ?_
          rintro _ s2 ⟨v, hv⟩
          exact ⟨v, vmono (by omega) hv⟩
      · intro c' s' h' hm hval ho'
        rw [if_neg (by simp)]
        refine (ih ho' h' (isTop_canPeek ho'.notTop) (by omega) (fun _ => hval) (by omega)).post ?_
        rintro _ s2 ⟨v, hv⟩
        exact ⟨v, vmono (by omega) hv⟩
    cases n with
    | zero =>
      rw [atContainerEnd_zero]
      refine Wp.bind_ok (a := false) rfl ?_
      rw [if_neg (by exact Bool.false_ne_true)]
      refine Wp.congr ?_ (elem h (Nat.le_refl _))
      simp only [M.run_bind]
      cases skipNameIfExpected.run s with
      | err => rfl
      | ok a s' => 
        dsimp only
        cases skipValueStart.run s' with
        | err => rfl
        | ok a s' => rfl
    | succ n =>
      rw [atContainerEnd_succ]
      refine Wp.bind (Wp.bind' (hasNext_wp h (hv (by omega)) ho.notTop) ?_)
      rintro b _ ⟨p, l, pos, r, rfl, rfl, hP, hm⟩
      refine Wp.pure ?_
      refine Wp.ite_bind (fun hp => ?_) fun hp => ?_
      · refine Wp.bind (Wp.bind' (endContainer_wp (.p hP) (hv (by omega)) ho.notTop) ?_)
        rintro _ _ ⟨u, lu, v, pos', r', hcc, hsl, rfl, hN, hm'⟩
        refine Wp.pure ?_
        have hu : Open c0 n u := by
          rcases hcc with ⟨d, rfl⟩ | ⟨d, rfl⟩ <;> (cases ho; assumption)
        cases n with
        | zero =>
          cases hu
          exact Wp.pure ⟨v, lu, pos', r', hsl, rfl, hN, by omega⟩
        | succ n =>
          rw [if_neg (by simp)]
          refine (ih hu.add (.n hN.toInvN) (isTop_canPeek hu.add.notTop) (by omega) (fun _ => Ctx.add_isVal hsl) (by omega)).post ?_
          rintro _ s2 ⟨v, hv⟩
          exact ⟨v, vmono (by omega) hv⟩
      · refine Wp.congr ?_ (elem (.p hP) hm)
        simp only [M.run_bind]
        cases skipNameIfExpected.run (stp st c pos (some p) r) with
        | err => rfl
        | ok a s' => 
          dsimp only
          cases skipValueStart.run s' with
          | err => rfl
          | ok a s' => rfl

theorem skipValue_wp (h : At st inp g c s) (hc : CanPeek st c) (he : c.emn = false) :
    Wp skipValue s (fun _ s' => ∃ v, VPost st inp g c s v s') (EOk st inp g fun _ => True) := by
  unfold skipValue
  refine Wp.get ?_
  rw [h.emn, if_neg (by rw [he]; decide)]
  exact skipValueLoop_wp .z h hc (fun _ => he) (by omega) (fuel_mu h)

/-! ## Finishing arrays and objects -/

theorem skipItems_succ (fuel : Nat) : skipItems (σ := AbsSrc) (fuel + 1) = (do
    if ← hasNext then do
      skipValue
      skipItems fuel
    else pure ()) := rfl

theorem skipMembers_succ (fuel : Nat) : skipMembers (σ := AbsSrc) (fuel + 1) = (do
    if ← hasNext then do
      skipName
      skipValue
      skipMembers fuel
    else pure ()) := rfl

theorem skipItems_wp {up : Ctx} {lu : Lead} : ∀ {fuel : Nat} {d : List (Sep × Cst)} {s : St}, At st inp g (.arr up lu d) s → mu s < fuel →
    Wp (skipItems fuel) s (fun _ s' => ∃ d', At st inp g (.arr up lu (d ++ d')) s' ∧ mu s' ≤ mu s) (EOk st inp g fun _ => True) := by
  intro fuel
  induction fuel with
  | zero => intro d s _ h; omega
  | succ fuel ih =>
    intro d s h hf
    rw [skipItems_succ]
    refine Wp.bind' (hasNext_wp h rfl rfl) ?_
    rintro b _ ⟨p, l, pos, r, rfl, rfl, hP, hm⟩
    refine Wp.ite (fun _ => ?_) fun _ => Wp.pure ⟨[], by rw [List.append_nil]; exact .p hP, hm⟩
    refine Wp.bind' (skipValue_wp (.p hP) (isTop_canPeek rfl) rfl) ?_
    rintro _ _ ⟨v, l', pos', r', hsl, rfl, hN, hm'⟩
    cases l' with
    | ws => exact hsl.elim
    | colon => exact hsl.elim
    | sep sp =>
      simp only [Ctx.add] at hm'
      refine (ih (.n hN.toInvN) (by omega)).post ?_
      rintro _ s' ⟨d', h', hm''⟩
      exact ⟨(sp, v) :: d', by rw [List.append_assoc] at h'; exact h', by omega⟩

theorem skipMembers_wp {up : Ctx} {lu : Lead} : ∀ {fuel : Nat} {d : List Mem} {s : St}, At st inp g (.obj up lu d) s → mu s < fuel →
    Wp (skipMembers fuel) s (fun _ s' => ∃ d', At st inp g (.obj up lu (d ++ d')) s' ∧ mu s' ≤ mu s) (EOk st inp g fun _ => True) := by
  intro fuel
  induction fuel with
  | zero => intro d s _ h; omega
  | succ fuel ih =>
    intro d s h hf
    rw [skipMembers_succ]
    refine Wp.bind' (hasNext_wp h rfl rfl) ?_
    rintro b _ ⟨p, l, pos, r, rfl, rfl, hP, hm⟩
    refine Wp.ite (fun _ => ?_) fun _ => Wp.pure ⟨[], by rw [List.append_nil]; exact .p hP, hm⟩
    refine Wp.bind' (skipName_wp (.p hP)) ?_
    rintro _ _ ⟨x, hx, sp, pos2, r2, rfl, hN2, hm2⟩
    refine Wp.bind' (skipValue_wp (.n hN2) (isTop_canPeek rfl) rfl) ?_
    rintro _ _ ⟨v, l', pos', r', hsl, rfl, hN, hm'⟩
    cases l' with
    | ws => exact hsl.elim
    | sep => exact hsl.elim
    | colon w1 w2 =>
      simp only [Ctx.add] at hm'
      refine (ih (.n hN.toInvN) (by omega)).post ?_
      rintro _ s' ⟨d', h', hm''⟩
      exact ⟨⟨sp, x, w1, w2, v⟩ :: d', by rw [List.append_assoc] at h'; exact h', by omega⟩

/-- an array or object has been closed -/
def CPost (st : Settings) (inp : Bytes) (g : Prop) (up : Ctx) (l : Lead) (s : St) (v : Cst) (s' : St) : Prop :=
  up.Slot l ∧ ∃ pos r, s' = stp st (up.add l v) pos none r ∧ InvX st inp g (up.add l v) pos r ∧ mu s' < mu s

theorem finishArray_wp {up : Ctx} {lu : Lead} {d : List (Sep × Cst)} (h : At st inp g (.arr up lu d) s) :
    Wp finishArray s (fun _ s' => ∃ d' cl, CPost st inp g up lu s (.arr (mkItems cl (d ++ d'))) s') (EOk st inp g fun _ => True) := by
  unfold finishArray
  refine Wp.get (Wp.bind' (skipItems_wp h (fuel_mu h)) ?_)
  rintro _ s' ⟨d', h', hm⟩
  refine (endArray_wp h').post ?_
  rintro _ s'' ⟨cl, pos, r, h1, h2, h3, h4⟩
  exact ⟨d', cl, h1, pos, r, h2, h3, by omega⟩

theorem finishObject_wp {up : Ctx} {lu : Lead} {d : List Mem} (h : At st inp g (.obj up lu d) s) :
    Wp finishObject s (fun _ s' => ∃ d' cl, CPost st inp g up lu s (.obj (mkMembers cl (d ++ d'))) s') (EOk st inp g fun _ => True) := by
  unfold finishObject
  refine Wp.get (Wp.bind' (skipMembers_wp h (fuel_mu h)) ?_)
  rintro _ s' ⟨d', h', hm⟩
  refine (endObject_wp h').post ?_
  rintro _ s'' ⟨cl, pos, r, h1, h2, h3, h4⟩
  exact ⟨d', cl, h1, pos, r, h2, h3, by omega⟩

/-! ## `skip_to_top_level` -/

theorem skipToTopLevelLoop_succ (fuel : Nat) : skipToTopLevelLoop (σ := AbsSrc) (fuel + 1) = (do
    let s ← M.get
    match s.stack with
    | [] => pure ()
    | .array :: _ => do
      finishArray
      skipToTopLevelLoop fuel
    | .object :: _ => do
      finishObject
      skipToTopLevelLoop fuel) := rfl

theorem Ctx.add_stack {v : Cst} : (c.add l v).stack = c.stack := by cases c <;> cases l <;> rfl

theorem Ctx.add_root (c : Ctx) (l : Lead) (v : Cst) : (c.add l v).root = c.root ∨ ∃ w, c = .top c.root ∧ l = .ws w ∧ (c.add l v).root = c.root ++ [(w, v)] := by
  cases c <;> cases l <;> first | exact .inl rfl | skip
  exact .inr ⟨_, rfl, rfl, rfl⟩

/-- the top-level value is finished -/
def TopPost (st : Settings) (inp : Bytes) (g : Prop) (c : Ctx) (s : St) (s' : St) : Prop :=
  (c.isTop = true ∧ s' = s) ∨ (c.isTop = false ∧ ∃ w v, At st inp g (.top (c.root ++ [(w, v)])) s' ∧ mu s' < mu s)

theorem skipToTopLevelLoop_wp : ∀ {n : Nat} {c : Ctx} {s : St}, At st inp g c s → c.isVal = false → c.stack.length = n →
    Wp (skipToTopLevelLoop n) s (fun _ s' => TopPost st inp g c s s') (EOk st inp g fun _ => True) := by
  intro n
  induction n with
  | zero =>
    intro c s h hv hn
    have ht : c.isTop = true := by cases c <;> first | rfl | exact absurd hn (by simp [Ctx.stack])
    refine Wp.get ?_
    rw [if_pos (by rw [h.stack]; simpa using hn)]
    exact Wp.pure (.inl ⟨ht, rfl⟩)
  | succ n ih =>
    intro c s h hv hn
    rw [skipToTopLevelLoop_succ]
    refine Wp.get ?_
    rw [h.stack]
    have post : ∀ {u : Ctx} {lu : Lead} {v : Cst} {s1 s' : St}, c.isTop = false → c.root = u.root → CPost st inp g u lu s v s1 → TopPost st inp g (u.add lu v) s1 s' →
        TopPost st inp g c s s' := by
      rintro u lu v s1 s' hct hr ⟨hsl, pos, r, rfl, hN, hm⟩ (⟨ht, rfl⟩ | ⟨ht, w, v', hA, hm'⟩)
      · refine .inr ⟨hct, ?_⟩
        rcases Ctx.add_root u lu v with h | ⟨w, h1, rfl, h2⟩
        · cases u <;> cases lu <;> first | exact hsl.elim | exact Bool.noConfusion ht | skip
          rename_i d w
          exact ⟨w, v, by rw [hr]; exact .n hN.toInvN, hm⟩
        · refine ⟨w, v, ?_, hm⟩
          rw [hr, h1]
          rw [h1] at hN
          have : At st inp g ((Ctx.top u.root).add (.ws w) v) (stp st ((Ctx.top u.root).add (.ws w) v) pos none r) := .n hN.toInvN
          rw [h1]
          exact this
      · refine .inr ⟨hct, w, v', ?_, by omega⟩
        rcases Ctx.add_root u lu v with h | ⟨w, h1, rfl, h2⟩
        · rw [hr, ← h]; exact hA
        · rw [h1] at ht; exact Bool.noConfusion ht
    cases c with
    | top => exact absurd hn (by simp [Ctx.stack])
    | val => exact Bool.noConfusion hv
    | arr u lu d =>
      refine Wp.bind' (finishArray_wp h) ?_
      rintro _ s1 ⟨d', cl, hC⟩
      have hC' := hC
      obtain ⟨hsl, pos, r, rfl, hN, hm⟩ := hC'
      refine (ih (.n hN.toInvN) (Ctx.add_isVal hsl) (by rw [Ctx.add_stack]; simpa [Ctx.stack] using hn)).post ?_
      rintro _ s' h'
      exact post (u := u) rfl rfl hC h'
    | obj u lu d =>
      refine Wp.bind' (finishObject_wp h) ?_
      rintro _ s1 ⟨d', cl, hC⟩
      have hC' := hC
      obtain ⟨hsl, pos, r, rfl, hN, hm⟩ := hC'
      refine (ih (.n hN.toInvN) (Ctx.add_isVal hsl) (by rw [Ctx.add_stack]; simpa [Ctx.stack] using hn)).post ?_
      rintro _ s' h'
      exact post (u := u) rfl rfl hC h'

theorem skipToTopLevel_wp (h : At st inp g c s) : Wp skipToTopLevel s (fun _ s' => TopPost st inp g c s s') (EOk st inp g fun _ => True) := by
  unfold skipToTopLevel
  refine Wp.get ?_
  rw [if_neg (by rw [h.sra]; decide)]
  cases c with
  | val u lu d sp x =>
    rw [if_pos (by cases h <;> rfl)]
    refine Wp.bind' (skipValue_wp h (isTop_canPeek rfl) rfl) ?_
    rintro _ s' ⟨v, l, pos, r, hsl, rfl, hN, hm⟩
    cases l with
    | ws => exact hsl.elim
    | sep => exact hsl.elim
    | colon w1 w2 =>
      rw [h.stack]
      refine (skipToTopLevelLoop_wp (.n hN.toInvN) rfl rfl).post ?_
      rintro _ s' (⟨ht, rfl⟩ | ⟨_, w, v, hA, hm'⟩)
      · exact Bool.noConfusion ht
      · exact .inr ⟨rfl, w, v, hA, by omega⟩
  | top d =>
    rw [if_neg (by cases h <;> exact Bool.false_ne_true)]
    refine Wp.bind_ok (a := ()) rfl ?_
    rw [h.stack]
    exact skipToTopLevelLoop_wp h rfl rfl
  | arr u lu d =>
    rw [if_neg (by cases h <;> exact Bool.false_ne_true)]
    refine Wp.bind_ok (a := ()) rfl ?_
    rw [h.stack]
    exact skipToTopLevelLoop_wp h rfl rfl
  | obj u lu d =>
    rw [if_neg (by cases h <;> exact Bool.false_ne_true)]
    refine Wp.bind_ok (a := ()) rfl ?_
    rw [h.stack]
    exact skipToTopLevelLoop_wp h rfl rfl

/-! ## `seek_to` -/

theorem seekItems_zero (i : Nat) : seekItems (σ := AbsSrc) i 0 = (do if ← hasNext then pure () else structureErr (.tooShortArray i)) := rfl
theorem seekItems_succ (i n : Nat) : seekItems (σ := AbsSrc) i (n + 1) = (do
    if ← hasNext then do
      skipValue
      seekItems i n
    else structureErr (.tooShortArray i)) := rfl

theorem seekItems_wp {up : Ctx} {lu : Lead} {i : Nat} : ∀ {n : Nat} {d : List (Sep × Cst)} {s : St}, At st inp g (.arr up lu d) s →
    Wp (seekItems i n) s (fun _ s' => ∃ d', d'.length = n ∧ At st inp g (.arr up lu (d ++ d')) s' ∧ mu s' ≤ mu s) (EOk st inp g fun _ => True) := by
  intro n
  induction n with
  | zero =>
    intro d s h
    rw [seekItems_zero]
    refine Wp.bind' (hasNext_wp h rfl rfl) ?_
    rintro b _ ⟨p, l, pos, r, rfl, rfl, hP, hm⟩
    refine Wp.ite (fun _ => Wp.pure ⟨[], rfl, by rw [List.append_nil]; exact .p hP, hm⟩) fun _ => Wp.of_err rfl (hP.inv (K := fun _ => True) trivial)
  | succ n ih =>
    intro d s h
    rw [seekItems_succ]
    refine Wp.bind' (hasNext_wp h rfl rfl) ?_
    rintro b _ ⟨p, l, pos, r, rfl, rfl, hP, hm⟩
    refine Wp.ite (fun _ => ?_) fun _ => Wp.of_err rfl (hP.inv (K := fun _ => True) trivial)
    refine Wp.bind' (skipValue_wp (.p hP) (isTop_canPeek rfl) rfl) ?_
    rintro _ _ ⟨v, l', pos', r', hsl, rfl, hN, hm'⟩
    cases l' with
    | ws => exact hsl.elim
    | colon => exact hsl.elim
    | sep sp =>
      simp only [Ctx.add] at hm'
      refine (ih (.n hN.toInvN)).post ?_
      rintro _ s' ⟨d', hl, h', hm''⟩
      exact ⟨(sp, v) :: d', by simp [hl], by rw [List.append_assoc] at h'; exact h', by omega⟩

theorem seekMembers_succ (name : Text) (fuel : Nat) : seekMembers (σ := AbsSrc) name (fuel + 1) = (do
    if ← hasNext then do
      let n ← nextName
      if n == name then pure ()
      else do
        skipValue
        seekMembers name fuel
    else structureErr (.missingObjectMember name)) := rfl

theorem seekMembers_wp {up : Ctx} {lu : Lead} {name : Text} : ∀ {fuel : Nat} {d : List Mem} {s : St}, At st inp g (.obj up lu d) s → mu s < fuel →
    Wp (seekMembers name fuel) s (fun _ s' => ∃ d' sp x, (∀ m ∈ d', m.name.text ≠ name) ∧ x.text = name ∧ At st inp g (.val up lu (d ++ d') sp x) s' ∧ mu s' ≤ mu s)
      (EOk st inp g fun _ => True) := by
  intro fuel
  induction fuel with
  | zero => intro d s _ h; omega
  | succ fuel ih =>
    intro d s h hf
    rw [seekMembers_succ]
    refine Wp.bind' (hasNext_wp h rfl rfl) ?_
    rintro b _ ⟨p, l, pos, r, rfl, rfl, hP, hm⟩
    refine Wp.ite (fun _ => ?_) fun _ => Wp.of_err rfl (hP.inv (K := fun _ => True) trivial)
    refine Wp.bind' (nextName_wp (.p hP)) ?_
    rintro t _ ⟨x, rfl, hx, sp, pos2, r2, rfl, hN2, hm2⟩
    refine Wp.ite (fun hn => ?_) fun hn => ?_
    · exact Wp.pure ⟨[], sp, x, by simp, by simpa using hn, by rw [List.append_nil]; exact .n hN2, by omega⟩
    · refine Wp.bind' (skipValue_wp (.n hN2) (isTop_canPeek rfl) rfl) ?_
      rintro _ _ ⟨v, l', pos', r', hsl, rfl, hN, hm'⟩
      cases l' with
      | ws => exact hsl.elim
      | sep => exact hsl.elim
      | colon w1 w2 =>
        simp only [Ctx.add] at hm'
        refine (ih (.n hN.toInvN) (by omega)).post ?_
        rintro _ s' ⟨d', sp', x', hd', hx', h', hm''⟩
        refine ⟨⟨sp, x, w1, w2, v⟩ :: d', sp', x', ?_, hx', by rw [List.append_assoc] at h'; exact h', by omega⟩
        intro m hm
        rcases List.mem_cons.1 hm with rfl | hm
        · simpa using hn
        · exact hd' m hm

/-- `c'` is the context of the value to which the path leads from the next value in the context `c` -/
inductive SeekTo : List PathPiece → Ctx → Ctx → Prop
  | nil (c : Ctx) : SeekTo [] c c
  | item {ps : List PathPiece} {c c' : Ctx} (l : Lead) (d : List (Sep × Cst)) : SeekTo ps (.arr c l d) c' → SeekTo (.arrayItem d.length :: ps) c c'
  | member {ps : List PathPiece} {c c' : Ctx} (l : Lead) (d : List Mem) (sp : Sep) (x : Str) : (∀ m ∈ d, m.name.text ≠ x.text) →
      SeekTo ps (.val c l d sp x) c' → SeekTo (.objectMember x.text :: ps) c c'

theorem seekToPiece_wp {q : PathPiece} (h : At st inp g c s) (hc : CanPeek st c) (he : c.emn = false) :
    Wp (seekToPiece q) s (fun _ s' => ∃ c', At st inp g c' s' ∧ c'.isTop = false ∧ c'.emn = false ∧ (∀ {ps c''}, SeekTo ps c' c'' → SeekTo (q :: ps) c c'') ∧ mu s' ≤ mu s) (EOk st inp g fun _ => True) := by
  cases q with
  | arrayItem i =>
    unfold seekToPiece
    refine Wp.bind' (beginArray_wp h hc he) ?_
    rintro _ _ ⟨l, pos, r, rfl, hN, hm⟩
    refine (seekItems_wp (.n hN)).post ?_
    rintro _ s' ⟨d', rfl, h', hm'⟩
    exact ⟨_, h', rfl, rfl, fun h => .item l d' h, by omega⟩
  | objectMember name =>
    unfold seekToPiece
    refine Wp.bind' (beginObject_wp h hc he) ?_
    rintro _ _ ⟨l, pos, r, rfl, hN, hm⟩
    refine Wp.get ((seekMembers_wp (.n hN) (fuel_mu (.n hN))).post ?_)
    rintro _ s' ⟨d', sp, x, hd, rfl, h', hm'⟩
    exact ⟨_, h', rfl, rfl, fun h => .member l d' sp x hd h, by omega⟩

theorem seekToLoop_wp : ∀ {ps : List PathPiece} {c : Ctx} {s : St}, At st inp g c s → CanPeek st c → c.emn = false →
    Wp (seekToLoop ps) s (fun _ s' => ∃ c', At st inp g c' s' ∧ SeekTo ps c c' ∧ CanPeek st c' ∧ c'.emn = false ∧ mu s' ≤ mu s) (EOk st inp g fun _ => True) := by
  intro ps
  induction ps with
  | nil => intro c s h hc he; exact Wp.pure ⟨c, h, .nil c, hc, he, Nat.le_refl _⟩
  | cons q ps ih =>
    intro c s h hc he
    refine Wp.bind' (seekToPiece_wp h hc he) ?_
    rintro _ s' ⟨c', h', ht, he', hs, hm⟩
    refine (ih h' (isTop_canPeek ht) he').post ?_
    rintro _ s'' ⟨c'', h1, h2, h3, h4, h5⟩
    exact ⟨c'', h1, hs h2, h3, h4, by omega⟩

theorem seekTo_wp {ps : List PathPiece} (h : At st inp g c s) (hc : CanPeek st c) (he : c.emn = false) :
    Wp (seekTo ps) s (fun _ s' => ∃ c', At st inp g c' s' ∧ SeekTo ps c c' ∧ CanPeek st c' ∧ c'.emn = false ∧ mu s' ≤ mu s) (EOk st inp g fun _ => True) := by
  unfold seekTo
  refine Wp.bind' (peek_wp h hc he) ?_
  rintro _ _ ⟨p, l, pos, r, _, _, rfl, hP, hm⟩
  refine (seekToLoop_wp (.p hP) hc he).post ?_
  rintro _ s'' ⟨c'', h1, h2, h3, h4, h5⟩
  exact ⟨c'', h1, h2, h3, h4, by omega⟩

/-! ## `seek_back` -/

def kindOf : PathPiece → StackValue
  | .arrayItem _ => .array
  | .objectMember _ => .object

theorem seekBackLoop_wp : ∀ {ps : List PathPiece} {c : Ctx} {s : St}, At st inp g c s → (ps ≠ [] → c.isVal = false) → ps.map kindOf <+: c.stack →
    Wp (seekBackLoop ps) s (fun _ s' => ∃ c', At st inp g c' s' ∧ c'.stack = c.stack.drop ps.length ∧ (ps = [] → c' = c ∧ s' = s) ∧ (ps ≠ [] → c'.isVal = false ∧ mu s' < mu s) ∧
      (c'.isTop = true → ps ≠ [] → c'.isEmpty = false)) (EOk st inp g fun _ => True) := by
  intro ps
  induction ps with
  | nil => intro c s h _ _; exact Wp.pure ⟨c, h, rfl, fun _ => ⟨rfl, rfl⟩, fun h => absurd rfl h, fun _ h => absurd rfl h⟩
  | cons q ps ih =>
    intro c s h hv hp
    have hv := hv (by simp)
    have fin : ∀ {u : Ctx} {lu : Lead} {v : Cst} {s1 : St}, c.stack.tail = u.stack → ps.map kindOf <+: u.stack → CPost st inp g u lu s v s1 →
        Wp (seekBackLoop ps) s1 (fun _ s' => ∃ c', At st inp g c' s' ∧ c'.stack = c.stack.drop (q :: ps).length ∧ (q :: ps = [] → c' = c ∧ s' = s) ∧
          (q :: ps ≠ [] → c'.isVal = false ∧ mu s' < mu s) ∧ (c'.isTop = true → q :: ps ≠ [] → c'.isEmpty = false)) (EOk st inp g fun _ => True) := by
      rintro u lu v s1 hst hpre ⟨hsl, pos, r, rfl, hN, hm⟩
      refine (ih (.n hN.toInvN) (fun _ => Ctx.add_isVal hsl) (by rw [Ctx.add_stack]; exact hpre)).post ?_
      rintro _ s' ⟨c', h1, h2, h3, h4, h5⟩
      have hemp : (u.add lu v).isTop = true → (u.add lu v).isEmpty = false := by
        cases u <;> cases lu <;> first | exact hsl.elim | skip
        · intro _; simp [Ctx.add, Ctx.isEmpty]
        · exact Bool.noConfusion
        · exact Bool.noConfusion
      refine ⟨c', h1, ?_, nofun, fun _ => ?_, fun ht _ => ?_⟩
      · rw [h2, Ctx.add_stack, ← hst, List.length_cons]
        simp
      · by_cases hps : ps = []
        · obtain ⟨rfl, rfl⟩ := h3 hps
          exact ⟨Ctx.add_isVal hsl, hm⟩
        · exact ⟨(h4 hps).1, by have := (h4 hps).2; omega⟩
      · by_cases hps : ps = []
        · obtain ⟨rfl, rfl⟩ := h3 hps
          exact hemp ht
        · exact h5 ht hps
    cases c with
    | top => exact absurd hp (by simp [Ctx.stack])
    | val => exact Bool.noConfusion hv
    | arr u lu d =>
      rw [List.map_cons] at hp
      obtain ⟨h1, h2⟩ := List.cons_prefix_cons.1 hp
      cases q with
      | objectMember => cases h1
      | arrayItem i =>
        refine Wp.bind' (finishArray_wp h) ?_
        rintro _ s1 ⟨d', cl, hC⟩
        exact fin rfl h2 hC
    | obj u lu d =>
      rw [List.map_cons] at hp
      obtain ⟨h1, h2⟩ := List.cons_prefix_cons.1 hp
      cases q with
      | arrayItem => cases h1
      | objectMember i =>
        refine Wp.bind' (finishObject_wp h) ?_
        rintro _ s1 ⟨d', cl, hC⟩
        exact fin rfl h2 hC

/-! ## String value reader -/
end
end Verif.Abs
