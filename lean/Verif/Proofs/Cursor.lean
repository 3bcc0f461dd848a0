import Verif.Spec.Cursor
/-! # Lemmas about the cursor specification alone -/

namespace Verif.Cursor
open Reader Json

variable {st : Settings} {c c1 : Cur} {v w : JVal} {path : List PathPiece} {vs : List JVal}

/-- Error because of the nesting limit, which is lower than the given depth -/
def DeepStop (st : Settings) (d : Nat) (s : Step) : Prop := ∃ n, st.maxNestingDepth = some n ∧ n < d ∧ s = .stop (.depth n)

theorem tooDeep_some {max : Option Nat} {d n : Nat} (h : c.tooDeep max d = some n) : max = some n ∧ n < c.frames.length + d := by
  unfold Cur.tooDeep at h
  cases max with
  | none => cases h
  | some m =>
    dsimp only at h
    split at h
    · cases h; exact ⟨rfl, by assumption⟩
    · cases h

theorem DeepStop.mono {d d' : Nat} {s : Step} (h : DeepStop st d s) (hd : d ≤ d') : DeepStop st d' s := by
  obtain ⟨n, h1, h2, h3⟩ := h
  exact ⟨n, h1, Nat.lt_of_lt_of_le h2 hd, h3⟩

theorem depthItems_mem {v : JVal} : ∀ {vs : List JVal}, v ∈ vs → depth v ≤ depthItems vs
  | u :: vs, h => by
    rw [depthItems]
    rcases List.mem_cons.1 h with rfl | h
    · omega
    · have := depthItems_mem h
      omega

theorem depthItems_sub {vs ws : List JVal} (h : ∀ v ∈ vs, v ∈ ws) : depthItems vs ≤ depthItems ws := by
  induction vs with
  | nil => rw [depthItems]; omega
  | cons u vs ih =>
    rw [depthItems]
    have h1 := depthItems_mem (h u (by simp))
    have h2 := ih fun v hv => h v (by simp [hv])
    omega

theorem depthMembers_map : ∀ ms : List (Text × JVal), depthMembers ms = depthItems (ms.map Prod.snd)
  | [] => by rw [depthMembers, List.map_nil, depthItems]
  | (n, v) :: ms => by rw [depthMembers, List.map_cons, depthItems, depthMembers_map ms]

theorem splitMembers_spec (name : Text) : ∀ ms : List (Text × JVal), (∀ v ∈ (splitMembers name ms).1, v ∈ ms.map Prod.snd) ∧
    match (splitMembers name ms).2 with
    | some (v, rest) => (∃ done, ms = done ++ (name, v) :: rest ∧ (splitMembers name ms).1 = done.map Prod.snd ∧ ∀ m ∈ done, m.1 ≠ name) ∧ (ms.find? fun m => m.1 = name) = some (name, v)
    | none => (ms.find? fun m => m.1 = name) = none
  | [] => by simp [splitMembers]
  | (n, v) :: ms => by
    obtain ⟨h1, h2⟩ := splitMembers_spec name ms
    unfold splitMembers
    by_cases hn : n = name
    · subst hn
      simp
    · simp only [if_neg hn]
      refine ⟨?_, ?_⟩
      · intro u hu
        rcases List.mem_cons.1 hu with rfl | hu
        · simp
        · simpa using .inr (by simpa using h1 u hu)
      · cases h : (splitMembers name ms).2 with
        | none => rw [h] at h2; simpa [hn] using h2
        | some x =>
          obtain ⟨w, rest⟩ := x
          rw [h] at h2
          obtain ⟨⟨done, rfl, h3, h4⟩, h5⟩ := h2
          refine ⟨⟨(n, v) :: done, rfl, by simp [h3], ?_⟩, by simpa [hn] using h5⟩
          intro m hm
          rcases List.mem_cons.1 hm with rfl | hm
          · exact hn
          · exact h4 m hm

theorem withValue_some {f : JVal → Step} (hc : c.canValue st.allowMultipleTopLevel = true) (hn : c.next = some v) : withValue st c f = f v := by
  unfold withValue
  rw [hc, hn]
  rfl

/-- seek: leads to the value of the path, or fails where the path leaves the value -/
theorem seek_find : ∀ (path : List PathPiece) {c : Cur} {v : JVal}, c.canValue st.allowMultipleTopLevel = true → c.next = some v →
    DeepStop st (c.frames.length + depth v) (seek st path c) ∨
    match find path v with
    | .ok w => ∃ c', seek st path c = .ok .unit c' ∧ c'.next = some w ∧ c'.canValue st.allowMultipleTopLevel = true ∧ c'.frames.length = c.frames.length + path.length
    | .error k => seek st path c = .stop k
  | [], c, v, hc, hn => .inr ⟨c, rfl, hn, hc, rfl⟩
  | .arrayItem i :: ps, c, v, hc, hn => by
    unfold seek find
    rw [withValue_some hc hn]
    cases v with
    | arr vs =>
      dsimp only
      have hd : depth (.arr vs) = depthItems vs + 1 := by rw [depth]
      cases h1 : c.tooDeep st.maxNestingDepth 1 with
      | some n =>
        obtain ⟨a, b⟩ := tooDeep_some h1
        exact .inl ⟨n, a, by omega, rfl⟩
      | none =>
        cases h2 : skippable st (c.push (.array 0 vs)) (vs.take i) with
        | some n =>
          obtain ⟨a, b⟩ := tooDeep_some h2
          have := depthItems_sub (vs := vs.take i) (ws := vs) fun v hv => List.mem_of_mem_take hv
          refine .inl ⟨n, a, ?_, rfl⟩
          rw [show (c.push (.array 0 vs)).frames.length = c.frames.length + 1 from rfl] at b
          omega
        | none =>
          dsimp only
          by_cases hi : i < vs.length
          · rw [if_pos hi, List.getElem?_eq_getElem hi]
            have hn' : (c.push (.array i (vs.drop i))).next = some vs[i] := by
              show (vs.drop i).head? = _
              rw [List.head?_drop, List.getElem?_eq_getElem hi]
            have hc' : (c.push (.array i (vs.drop i))).canValue st.allowMultipleTopLevel = true := by
              unfold Cur.canValue at hc ⊢
              rw [Bool.and_eq_true] at hc ⊢
              exact ⟨hc.1, rfl⟩
            rcases seek_find ps hc' hn' with h | h
            · refine .inl (h.mono ?_)
              have := depthItems_mem (v := vs[i]) (vs := vs) (by simp)
              rw [show (c.push (.array i (vs.drop i))).frames.length = c.frames.length + 1 from rfl]
              omega
            · right
              cases hf : find ps vs[i] with
              | error k => rw [hf] at h; simp only [hf]; exact h
              | ok w =>
                rw [hf] at h
                simp only [hf]
                obtain ⟨c', a1, a2, a3, a4⟩ := h
                exact ⟨c', a1, a2, a3, a4.trans (by simp [Cur.push]; omega)⟩
          · rw [if_neg hi, List.getElem?_eq_none (by omega)]
            exact .inr rfl
    | null | bool | num | str | obj => exact .inr rfl
  | .objectMember name :: ps, c, v, hc, hn => by
    unfold seek find
    rw [withValue_some hc hn]
    cases v with
    | obj ms =>
      dsimp only
      have hd : depth (.obj ms) = depthItems (ms.map Prod.snd) + 1 := by rw [depth, depthMembers_map]
      obtain ⟨hs1, hs2⟩ := splitMembers_spec name ms
      cases h1 : c.tooDeep st.maxNestingDepth 1 with
      | some n =>
        obtain ⟨a, b⟩ := tooDeep_some h1
        exact .inl ⟨n, a, by omega, rfl⟩
      | none =>
        cases h2 : skippable st (c.push (.names name ms)) (splitMembers name ms).1 with
        | some n =>
          obtain ⟨a, b⟩ := tooDeep_some h2
          have := depthItems_sub hs1
          refine .inl ⟨n, a, ?_, rfl⟩
          rw [show (c.push (.names name ms)).frames.length = c.frames.length + 1 from rfl] at b
          omega
        | none =>
          dsimp only
          cases h3 : (splitMembers name ms).2 with
          | none =>
            rw [h3] at hs2
            dsimp only at hs2
            rw [hs2]
            exact .inr rfl
          | some x =>
            obtain ⟨u, rest⟩ := x
            rw [h3] at hs2
            dsimp only at hs2
            obtain ⟨⟨done, hms, -, -⟩, hs2⟩ := hs2
            rw [hs2]
            dsimp only
            have hc' : (c.push (.value name u rest)).canValue st.allowMultipleTopLevel = true := by
              unfold Cur.canValue at hc ⊢
              rw [Bool.and_eq_true] at hc ⊢
              exact ⟨hc.1, rfl⟩
            rcases seek_find ps hc' (v := u) rfl with h | h
            · refine .inl (h.mono ?_)
              have := depthItems_mem (v := u) (vs := ms.map Prod.snd) (by rw [hms]; simp)
              rw [show (c.push (.value name u rest)).frames.length = c.frames.length + 1 from rfl]
              omega
            · right
              cases hf : find ps u with
              | error k => rw [hf] at h; exact h
              | ok w =>
                rw [hf] at h
                obtain ⟨c', a1, a2, a3, a4⟩ := h
                exact ⟨c', a1, a2, a3, a4.trans (by simp [Cur.push]; omega)⟩
    | null | bool | num | str | arr => exact .inr rfl

/-! ## Back -/

theorem back_append (ps qs : List PathPiece) : ∀ {c : Cur}, back st (ps ++ qs) c = match back st ps c with
    | .ok _ c' => back st qs c'
    | s => s := by
  induction ps with
  | nil => intro c; rfl
  | cons p ps ih =>
    intro c
    simp only [List.cons_append, back]
    split
    · cases h : finish st c with
      | ok v c' => exact ih
      | err | stop | misuse => rfl
    · cases h : finish st c with
      | ok v c' => exact ih
      | err | stop | misuse => rfl
    · rfl

/-- After reading the value to which `seek` leads, `back` leads behind the value at which `seek` started -/
theorem seek_back : ∀ (path : List PathPiece) {c c1 : Cur} {v : JVal} {x : Val}, c.canValue st.allowMultipleTopLevel = true → c.next = some v → seek st path c = .ok x c1 →
    back st path.reverse c1.advance = .ok .unit c.advance ∨ DeepStop st (c.frames.length + depth v) (back st path.reverse c1.advance)
  | [], c, c1, v, x, hc, hn, h => by
    cases h
    exact .inl rfl
  | .arrayItem i :: ps, c, c1, v, x, hc, hn, h => by
    unfold seek at h
    rw [withValue_some hc hn] at h
    cases v with
    | arr vs =>
      dsimp only at h
      have hd : depth (.arr vs) = depthItems vs + 1 := by rw [depth]
      split at h
      · cases h
      · cases h
      · split at h
        · rename_i hi
          have hn' : (c.push (.array i (vs.drop i))).next = some vs[i] := by
            show (vs.drop i).head? = _
            rw [List.head?_drop, List.getElem?_eq_getElem hi]
          have hc' : (c.push (.array i (vs.drop i))).canValue st.allowMultipleTopLevel = true := by
            unfold Cur.canValue at hc ⊢
            rw [Bool.and_eq_true] at hc ⊢
            exact ⟨hc.1, rfl⟩
          have hl : (c.push (.array i (vs.drop i))).frames.length = c.frames.length + 1 := rfl
          rw [List.reverse_cons, back_append]
          rcases seek_back ps hc' hn' h with h | ⟨n, a, b, h⟩
          · rw [h]
            dsimp only
            have hb : back st [.arrayItem i] (c.push (.array i (vs.drop i))).advance = match skippable st (c.push (.array i (vs.drop i))).advance (vs.drop i).tail with
                | some n => .stop (.depth n)
                | none => .ok .unit c.advance := by
              unfold back finish
              show (match (match skippable st (c.push (.array i (vs.drop i))).advance (vs.drop i).tail with | some n => Step.stop (.depth n) | none => .ok .unit (c.push (.array i (vs.drop i))).advance.pop) with | .ok _ c' => back st [] c' | s => s) = _
              cases skippable st (c.push (.array i (vs.drop i))).advance (vs.drop i).tail <;> rfl
            rw [hb]
            cases hs : skippable st (c.push (.array i (vs.drop i))).advance (vs.drop i).tail with
            | none => exact .inl rfl
            | some n =>
              obtain ⟨a, b⟩ := tooDeep_some hs
              have := depthItems_sub (vs := (vs.drop i).tail) (ws := vs) fun v hv => List.mem_of_mem_drop (List.mem_of_mem_tail hv)
              rw [show (c.push (.array i (vs.drop i))).advance.frames.length = c.frames.length + 1 from rfl] at b
              exact .inr ⟨n, a, by omega, rfl⟩
          · rw [h]
            have := depthItems_mem (v := vs[i]) (vs := vs) (by simp)
            exact .inr ⟨n, a, by omega, rfl⟩
        · cases h
    | null | bool | num | str | obj => cases h
  | .objectMember name :: ps, c, c1, v, x, hc, hn, h => by
    unfold seek at h
    rw [withValue_some hc hn] at h
    cases v with
    | obj ms =>
      dsimp only at h
      have hd : depth (.obj ms) = depthItems (ms.map Prod.snd) + 1 := by rw [depth, depthMembers_map]
      obtain ⟨-, hs2⟩ := splitMembers_spec name ms
      split at h
      · cases h
      · cases h
      · split at h
        · rename_i u rest h3
          rw [h3] at hs2
          obtain ⟨⟨done, hms, -, -⟩, -⟩ := hs2
          have hc' : (c.push (.value name u rest)).canValue st.allowMultipleTopLevel = true := by
            unfold Cur.canValue at hc ⊢
            rw [Bool.and_eq_true] at hc ⊢
            exact ⟨hc.1, rfl⟩
          have hl : (c.push (.value name u rest)).frames.length = c.frames.length + 1 := rfl
          rw [List.reverse_cons, back_append]
          rcases seek_back ps hc' (v := u) rfl h with h | ⟨n, a, b, h⟩
          · rw [h]
            dsimp only
            have hb : back st [.objectMember name] (c.push (.value name u rest)).advance = match skippable st (c.push (.value name u rest)).advance (rest.map Prod.snd) with
                | some n => .stop (.depth n)
                | none => .ok .unit c.advance := by
              unfold back finish
              show (match (match skippable st (c.push (.value name u rest)).advance (rest.map Prod.snd) with | some n => Step.stop (.depth n) | none => .ok .unit (c.push (.value name u rest)).advance.pop) with | .ok _ c' => back st [] c' | s => s) = _
              cases skippable st (c.push (.value name u rest)).advance (rest.map Prod.snd) <;> rfl
            rw [hb]
            cases hs : skippable st (c.push (.value name u rest)).advance (rest.map Prod.snd) with
            | none => exact .inl rfl
            | some n =>
              obtain ⟨a, b⟩ := tooDeep_some hs
              have := depthItems_sub (vs := rest.map Prod.snd) (ws := ms.map Prod.snd) (by rw [hms]; intro v hv; simp only [List.map_append, List.map_cons, List.mem_append, List.mem_cons]; exact .inr (.inr hv))
              rw [show (c.push (.value name u rest)).advance.frames.length = c.frames.length + 1 from rfl] at b
              exact .inr ⟨n, a, by omega, rfl⟩
          · rw [h]
            have := depthItems_mem (v := u) (vs := ms.map Prod.snd) (by rw [hms]; simp)
            exact .inr ⟨n, a, by omega, rfl⟩
        · cases h
    | null | bool | num | str | arr => cases h

/-! ## The cursor is always a place in the values -/

theorem next_started {fs : List Frame} {b b' x x' : Bool} {tops : List JVal} : Cur.next ⟨fs, b, tops, x⟩ = Cur.next ⟨fs, b', tops, x'⟩ := rfl

theorem Cur.In.push {f : Frame} (h : c.In vs) (hn : c.next = some v) (hf : f.In v) : (c.push f).In vs := ⟨h.1, ⟨v, hn, hf⟩, h.2⟩

theorem Cur.In.advance (h : c.In vs) (hn : c.next = some v) : c.advance.In vs := by
  obtain ⟨fs, b, tops, x⟩ := c
  obtain ⟨⟨done, h1, h2⟩, h3⟩ := h
  match fs, h3 with
  | [], _ =>
    cases tops with
    | nil => cases hn
    | cons t tops =>
      refine ⟨⟨done ++ [t], ?_, ?_⟩, trivial⟩
      · simp only [Cur.advance, List.tail_cons, List.append_assoc]
        exact h1
      · simp [Cur.advance]
  | .array i rest :: fs, ⟨⟨u, hu, ws, h4, h5, h6⟩, h7⟩ =>
    refine ⟨⟨done, h1, h2⟩, ⟨u, hu, ws, h4, ?_, ?_⟩, h7⟩
    · have : (ws.drop i).head? = some v := h6 ▸ hn
      rw [List.head?_drop] at this
      obtain ⟨h, _⟩ := List.getElem?_eq_some_iff.1 this
      exact h
    · rw [h6, List.tail_drop]
  | .names _ _ :: _, _ => cases hn
  | .value n w rest :: fs, ⟨⟨u, hu, d, h4⟩, h7⟩ =>
    exact ⟨⟨done, h1, h2⟩, ⟨u, hu, d ++ [(n, w)], by rw [h4, List.append_assoc]; rfl, by simp⟩, h7⟩

theorem Cur.In.pop {f : Frame} {fs : List Frame} (h : c.In vs) (hf : c.frames = f :: fs) : c.pop.In vs := by
  obtain ⟨fs', b, tops, x⟩ := c
  cases hf
  obtain ⟨h1, ⟨⟨v, hv, _⟩, h3⟩⟩ := h
  exact Cur.In.advance (c := ⟨fs, b, tops, x⟩) (v := v) ⟨h1, h3⟩ hv

theorem Cur.In.finish {x : Val} (h : c.In vs) (hf : finish st c = .ok x c1) : c1.In vs ∧ ∃ f fs, c.frames = f :: fs ∧ c1 = c.pop := by
  unfold Cursor.finish at hf
  split at hf
  · cases hf
  · rename_i hc
    split at hf <;> cases hf
    exact ⟨h.pop hc, _, _, hc, rfl⟩
  · rename_i hc
    split at hf <;> cases hf
    exact ⟨h.pop hc, _, _, hc, rfl⟩
  · cases hf

theorem Cur.In.finishAll : ∀ {n : Nat} {c c1 : Cur} {x : Val}, c.In vs → finishAll st n c = .ok x c1 → c1.In vs
  | 0, c, c1, x, h, hf => by cases hf; exact h
  | n + 1, c, c1, x, h, hf => by
    unfold Cursor.finishAll at hf
    cases h1 : Cursor.finish st c with
    | ok v c2 => rw [h1] at hf; exact Cur.In.finishAll (Cur.In.finish h h1).1 hf
    | err | stop | misuse => rw [h1] at hf; cases hf

theorem Cur.In.back : ∀ {ps : List PathPiece} {c c1 : Cur} {x : Val}, c.In vs → back st ps c = .ok x c1 → c1.In vs
  | [], c, c1, x, h, hf => by cases hf; exact h
  | p :: ps, c, c1, x, h, hf => by
    unfold Cursor.back at hf
    split at hf
    · split at hf
      · rename_i h1
        exact Cur.In.back (Cur.In.finish h h1).1 hf
      · rename_i hne; rw [hf] at hne; exact absurd rfl (hne _ _)
    · split at hf
      · rename_i h1
        exact Cur.In.back (Cur.In.finish h h1).1 hf
      · rename_i hne; rw [hf] at hne; exact absurd rfl (hne _ _)
    · cases hf

theorem withValue_ok {f : JVal → Step} {x : Val} (h : withValue st c f = .ok x c1) : c.canValue st.allowMultipleTopLevel = true ∧ ∃ v, c.next = some v ∧ f v = .ok x c1 := by
  unfold withValue at h
  split at h
  · cases h
  · rename_i hc
    refine ⟨by simpa using hc, ?_⟩
    split at h
    · rename_i v hn
      exact ⟨v, hn, h⟩
    · split at h <;> cases h

theorem Cur.In.seek : ∀ {ps : List PathPiece} {c c1 : Cur} {x : Val}, c.In vs → seek st ps c = .ok x c1 → c1.In vs
  | [], c, c1, x, h, hf => by cases hf; exact h
  | .arrayItem i :: ps, c, c1, x, h, hf => by
    unfold Cursor.seek at hf
    obtain ⟨-, v, hn, hf⟩ := withValue_ok hf
    cases v with
    | arr ws =>
      dsimp only at hf
      split at hf
      · cases hf
      · cases hf
      · split at hf
        · rename_i hi
          exact Cur.In.seek (h.push (f := .array i (ws.drop i)) hn ⟨ws, rfl, Nat.le_of_lt hi, rfl⟩) hf
        · cases hf
    | null | bool | num | str | obj => cases hf
  | .objectMember name :: ps, c, c1, x, h, hf => by
    unfold Cursor.seek at hf
    obtain ⟨-, v, hn, hf⟩ := withValue_ok hf
    cases v with
    | obj ms =>
      dsimp only at hf
      obtain ⟨-, hs2⟩ := splitMembers_spec name ms
      split at hf
      · cases hf
      · cases hf
      · split at hf
        · rename_i u rest h3
          rw [h3] at hs2
          obtain ⟨⟨done, hms, -, -⟩, -⟩ := hs2
          exact Cur.In.seek (h.push (f := .value name u rest) hn ⟨done, by rw [hms]⟩) hf
        · cases hf
    | null | bool | num | str | arr => cases hf

theorem Cur.In.beginStep {f : Frame} {x : Val} (h : c.In vs) (hn : c.next = some v) (hf : f.In v) (hs : beginStep st c f = .ok x c1) : c1.In vs := by
  unfold Cursor.beginStep at hs
  split at hs <;> cases hs
  exact h.push hn hf

/-- Errors which are not fatal leave the cursor where it is -/
theorem step_err {op : Op} {k : Kind} (h : step st c op = .err k c1) : c1 = c := by
  have hw : ∀ {f : JVal → Step}, (∀ v, f v = .err k c1 → c1 = c) → withValue st c f = .err k c1 → c1 = c := by
    intro f hf h
    unfold withValue at h
    split at h
    · cases h
    · split at h
      · exact hf _ h
      · split at h <;> cases h
        rfl
  have hfin : ∀ {c : Cur}, Cursor.finish st c ≠ .err k c1 := by
    intro c h
    unfold Cursor.finish at h
    split at h <;> first | cases h | (split at h <;> cases h)
  have hall : ∀ {n : Nat} {c : Cur}, Cursor.finishAll st n c ≠ .err k c1 := by
    intro n
    induction n with
    | zero => intro c h; cases h
    | succ n ih =>
      intro c h
      unfold Cursor.finishAll at h
      cases h1 : Cursor.finish st c with
      | ok v c2 => rw [h1] at h; exact ih h
      | err k' c' => rw [h1] at h; cases h; exact hfin h1
      | stop | misuse => rw [h1] at h; cases h
  have hback : ∀ {ps : List PathPiece} {c : Cur}, Cursor.back st ps c ≠ .err k c1 := by
    intro ps
    induction ps with
    | nil => intro c h; cases h
    | cons p ps ih =>
      intro c h
      unfold Cursor.back at h
      split at h
      · cases h1 : Cursor.finish st c with
        | ok v c2 => rw [h1] at h; exact ih h
        | err k' c' => rw [h1] at h; cases h; exact hfin h1
        | stop | misuse => rw [h1] at h; cases h
      · cases h1 : Cursor.finish st c with
        | ok v c2 => rw [h1] at h; exact ih h
        | err k' c' => rw [h1] at h; cases h; exact hfin h1
        | stop | misuse => rw [h1] at h; cases h
      · cases h
  have hb : ∀ {f : Frame}, Cursor.beginStep st c f = .err k c1 → c1 = c := by
    intro f h
    unfold Cursor.beginStep at h
    split at h <;> cases h
    rfl
  have hwt : ∀ {t : ValueType} {v : JVal}, wrongType c t v = .err k c1 → c1 = c := by
    intro t v h
    cases h
    rfl
  cases op with
  | peek => exact hw (fun v h => by cases h) h
  | beginArray => exact hw (fun v h => by cases v <;> first | exact hb h | exact hwt h) h
  | beginObject => exact hw (fun v h => by cases v <;> first | exact hb h | exact hwt h) h
  | nextString | nextStr | stringReader | nextBool | nextNull => exact hw (fun v h => by cases v <;> first | exact hwt h | (cases h; done)) h
  | nextNumberAsStr | nextNumberAsString =>
    refine hw (fun v h => ?_) h
    cases v with
    | num t =>
      change (if (st.restrictNumberValues && unsupportedNumber t) = true then Step.stop (.number t) else .ok (.text t) c.advance) = _ at h
      split at h <;> cases h
    | null | bool | str | arr | obj => exact hwt h
  | skipValue => exact hw (fun v h => by split at h <;> cases h) h
  | nextName | nextNameOwned | skipName =>
    unfold step at h
    dsimp only at h
    split at h
    · cases h
    · split at h <;> cases h
      rfl
  | endArray | endObject =>
    unfold step at h
    dsimp only at h
    split at h
    · cases h
    · split at h <;> cases h
      rfl
  | hasNext =>
    unfold step at h
    dsimp only at h
    split at h
    · cases h
    · split at h <;> first | cases h | (split at h <;> cases h)
  | skipToTopLevel =>
    unfold step at h
    dsimp only at h
    split at h
    · cases h
    · split at h
      · split at h
        · cases h
        · exact absurd h hall
      · exact absurd h hall
  | seekTo path =>
    unfold step at h
    dsimp only at h
    by_cases hc : c.canValue st.allowMultipleTopLevel = true
    · cases hn : c.next with
      | some v =>
        rw [withValue_some hc hn] at h
        rcases seek_find path hc hn with ⟨n, _, _, h1⟩ | h1
        · rw [h1] at h; cases h
        · split at h1
          · obtain ⟨_, h1, _⟩ := h1
            rw [h1] at h; cases h
          · rw [h1] at h; cases h
      | none =>
        unfold withValue at h
        rw [hc, hn] at h
        rw [if_neg (by decide)] at h
        dsimp only at h
        split at h <;> cases h
        rfl
    · unfold withValue at h
      rw [eq_false_of_ne_true hc] at h
      cases h
  | seekBack path =>
    unfold step at h
    dsimp only at h
    split at h
    · cases h
    · exact absurd h hback
  | currentPosition => cases h
  | consumeTrailingWhitespace =>
    unfold step at h
    dsimp only at h
    split at h <;> cases h

theorem Cur.In.init : (Cur.init vs).In vs := ⟨⟨[], rfl, rfl⟩, trivial⟩

theorem Cur.In.step {op : Op} {x : Val} (h : c.In vs) (hs : step st c op = .ok x c1) (hct : op ≠ .consumeTrailingWhitespace) : c1.In vs := by
  have hv : ∀ {f : JVal → Step}, withValue st c f = .ok x c1 → (∀ v, c.next = some v → f v = .ok x c1 → c1.In vs) → c1.In vs := by
    intro f h1 h2
    obtain ⟨_, v, hn, h3⟩ := withValue_ok h1
    exact h2 v hn h3
  have hadv : ∀ {v : JVal} {x' : Val}, c.next = some v → Step.ok x' c.advance = .ok x c1 → c1.In vs := by
    intro v x' hn h1
    cases h1
    exact h.advance hn
  cases op with
  | peek => exact hv hs fun v hn h1 => by cases h1; exact h
  | beginArray => exact hv hs fun v hn h1 => by cases v <;> first | (cases h1; done) | exact h.beginStep (f := .array 0 _) hn ⟨_, rfl, Nat.zero_le _, rfl⟩ h1
  | beginObject => exact hv hs fun v hn h1 => by cases v <;> first | (cases h1; done) | exact h.beginStep (f := .names _ _) hn ⟨[], rfl, rfl⟩ h1
  | nextString | nextStr | nextBool | nextNull => exact hv hs fun v hn h1 => by cases v <;> first | (cases h1; done) | exact hadv hn h1
  | stringReader lens =>
    refine hv hs fun v hn h1 => ?_
    cases v with
    | str t =>
      simp only [Step.ok.injEq] at h1
      rw [← h1.2]
      split
      · exact h.advance hn
      · exact h
    | null | bool | num | arr | obj => cases h1
  | nextNumberAsStr | nextNumberAsString =>
    refine hv hs fun v hn h1 => ?_
    cases v with
    | num t =>
      dsimp only at h1
      split at h1
      · cases h1
      · exact hadv hn h1
    | null | bool | str | arr | obj => cases h1
  | skipValue =>
    refine hv hs fun v hn h1 => ?_
    split at h1
    · cases h1
    · exact hadv hn h1
  | nextName | nextNameOwned | skipName =>
    unfold Cursor.step at hs
    dsimp only at hs
    split at hs
    · cases hs
    · split at hs
      · rename_i hf
        cases hs
        obtain ⟨h1, h2⟩ := h
        rw [hf] at h2
        obtain ⟨⟨v, hv, d, h3, _⟩, h4⟩ := h2
        exact ⟨h1, ⟨v, hv, d, h3⟩, h4⟩
      · cases hs
      · cases hs
  | endArray | endObject =>
    unfold Cursor.step at hs
    dsimp only at hs
    split at hs
    · cases hs
    · split at hs
      · rename_i hf
        cases hs
        exact h.pop hf
      · cases hs
      · cases hs
  | hasNext =>
    unfold Cursor.step at hs
    dsimp only at hs
    split at hs
    · cases hs
    · split at hs
      · split at hs <;> cases hs
        exact h
      · cases hs; exact h
      · cases hs; exact h
      · cases hs
  | skipToTopLevel =>
    unfold Cursor.step at hs
    dsimp only at hs
    split at hs
    · cases hs
    · split at hs
      · rename_i hf
        split at hs
        · cases hs
        · exact Cur.In.finishAll (h.advance (by rw [Cur.next, hf])) hs
      · exact h.finishAll hs
  | seekTo path => exact hv hs fun v hn h1 => h.seek h1
  | seekBack path =>
    unfold Cursor.step at hs
    dsimp only at hs
    split at hs
    · cases hs
    · exact h.back hs
  | currentPosition => cases hs; exact h
  | consumeTrailingWhitespace => exact absurd rfl hct

/-- The cursor is a place in the values -/
theorem reach_in : ∀ {ops : List Op} {c c1 : Cur}, c.In vs → reach st ops c = some c1 → c1.In vs
  | [], c, c1, h, hr => by cases hr; exact h
  | op :: ops, c, c1, h, hr => by
    unfold reach at hr
    cases hs : Cursor.step st c op with
    | ok x c2 =>
      rw [hs] at hr
      dsimp only at hr
      split at hr
      · cases hr
      · rename_i hct
        exact reach_in (h.step hs hct) hr
    | err k c2 =>
      rw [hs] at hr
      rw [step_err hs] at hr
      exact reach_in h hr
    | stop | misuse => rw [hs] at hr; cases hr

theorem reach_append : ∀ {ops : List Op} {c c1 : Cur} (ops' : List Op), reach st ops c = some c1 → reach st (ops ++ ops') c = reach st ops' c1
  | [], c, c1, ops', h => by cases h; rfl
  | op :: ops, c, c1, ops', h => by
    rw [List.cons_append]
    rw [reach] at h ⊢
    split at h
    · split at h
      · cases h
      · rename_i hct
        rw [if_neg hct]
        exact reach_append ops' h
    · exact reach_append ops' h
    · cases h
    · cases h

/-! ## To the top level -/

theorem frames_depth : ∀ {fs : List Frame} {tops : List JVal} {b x : Bool} {v : JVal}, FramesIn tops fs → Cur.next ⟨fs, b, tops, x⟩ = some v → ∃ t, tops.head? = some t ∧ fs.length + depth v ≤ depth t
  | [], tops, b, x, v, _, hn => ⟨v, hn, by simp⟩
  | f :: fs, tops, b, x, v, ⟨⟨u, hu, hf⟩, h2⟩, hn => by
    obtain ⟨t, h3, h4⟩ := frames_depth h2 hu
    refine ⟨t, h3, ?_⟩
    have : depth v + 1 ≤ depth u := by
      cases f with
      | array i rest =>
        obtain ⟨ws, rfl, _, rfl⟩ := hf
        rw [depth]
        have := depthItems_mem (v := v) (vs := ws) (List.mem_of_mem_drop (List.mem_of_mem_head? hn))
        omega
      | names => cases hn
      | value n w rest =>
        obtain ⟨d, rfl⟩ := hf
        cases hn
        rw [depth, depthMembers_map]
        have := depthItems_mem (v := v) (vs := (d ++ (n, v) :: rest).map Prod.snd) (by simp)
        omega
    rw [List.length_cons]
    omega

/-- The innermost frame is not between a name and its value; `n` is more than the depth of what can be skipped -/
theorem finishAll_frames : ∀ {fs : List Frame} {b x : Bool} {tops : List JVal}, FramesIn tops fs → (∀ n v r, fs.head? ≠ some (.value n v r)) →
    (∃ t, tops.head? = some t ∧ DeepStop st (depth t) (finishAll st fs.length ⟨fs, b, tops, x⟩)) ∨
    finishAll st fs.length ⟨fs, b, tops, x⟩ = .ok .unit (if fs = [] then ⟨[], b, tops, x⟩ else ⟨[], true, tops.tail, x⟩)
  | [], b, x, tops, _, _ => .inr rfl
  | .value n v r :: fs, b, x, tops, _, h => absurd rfl (h n v r)
  | f :: fs, b, x, tops, ⟨⟨v, hv, hin⟩, h2⟩, h => by
    obtain ⟨t, ht, hd⟩ := frames_depth h2 hv
    have hfin : DeepStop st (depth t) (Cursor.finish st ⟨f :: fs, b, tops, x⟩) ∨ Cursor.finish st ⟨f :: fs, b, tops, x⟩ = .ok .unit (Cur.pop ⟨f :: fs, b, tops, x⟩) := by
      unfold Cursor.finish
      cases f with
      | value n v r => exact absurd rfl (h n v r)
      | array i rest =>
        dsimp only
        cases hs : skippable st ⟨.array i rest :: fs, b, tops, x⟩ rest with
        | none => exact .inr rfl
        | some n =>
          obtain ⟨ws, rfl, _, rfl⟩ := hin
          have h1 := depthItems_sub (vs := ws.drop i) (ws := ws) fun v hv => List.mem_of_mem_drop hv
          have h2 := (tooDeep_some hs).2
          rw [depth] at hd
          simp only [List.length_cons] at h2
          exact .inl ⟨n, (tooDeep_some hs).1, by omega, rfl⟩
      | names i rest =>
        dsimp only
        cases hs : skippable st ⟨.names i rest :: fs, b, tops, x⟩ (rest.map Prod.snd) with
        | none => exact .inr rfl
        | some n =>
          obtain ⟨ws, rfl, _⟩ := hin
          have h1 := depthItems_sub (vs := rest.map Prod.snd) (ws := (ws ++ rest).map Prod.snd) fun v hv => by rw [List.map_append]; exact List.mem_append_right _ hv
          have h2 := (tooDeep_some hs).2
          rw [depth, depthMembers_map] at hd
          simp only [List.length_cons] at h2
          exact .inl ⟨n, (tooDeep_some hs).1, by omega, rfl⟩
    rw [List.length_cons, if_neg (by simp)]
    unfold Cursor.finishAll
    rcases hfin with ⟨n, a, b', h1⟩ | h1
    · rw [h1]
      exact .inl ⟨t, ht, n, a, b', rfl⟩
    · rw [h1]
      dsimp only
      cases fs with
      | nil => exact .inr rfl
      | cons f2 fs =>
        have hadv : ∃ f3, Cur.pop ⟨f :: f2 :: fs, b, tops, x⟩ = ⟨f3 :: fs, b, tops, x⟩ ∧ (∀ n v r, f3 ≠ .value n v r) ∧ FramesIn tops (f3 :: fs) := by
          have hp : (Cur.pop ⟨f :: f2 :: fs, b, tops, x⟩).In ([⟨⟩].flatMap (fun _ : Unit => if b then JVal.null :: tops else tops)) :=
            Cur.In.advance (c := ⟨f2 :: fs, b, tops, x⟩) (v := v) ⟨⟨if b then [.null] else [], by cases b <;> simp, by cases b <;> rfl⟩, h2⟩ hv
          cases f2 with
          | array i rest => exact ⟨_, rfl, nofun, hp.2⟩
          | names => cases hv
          | value n w rest => exact ⟨_, rfl, nofun, hp.2⟩
        obtain ⟨f3, h3, h4, h5⟩ := hadv
        rw [h3]
        have := finishAll_frames (b := b) (x := x) h5 (by intro n v r he; exact h4 n v r (Option.some.inj he))
        rwa [if_neg (by simp)] at this
termination_by fs => fs.length
decreasing_by all_goals simp_all

theorem skipToTopLevel_step {vs : List JVal} (h : c.In vs) (hs : c.str = false) :
    (∃ t, c.tops.head? = some t ∧ DeepStop st (depth t) (step st c .skipToTopLevel)) ∨
    step st c .skipToTopLevel = .ok .unit (if c.frames = [] then c else ⟨[], true, c.tops.tail, false⟩) := by
  obtain ⟨fs, b, tops, x⟩ := c
  cases hs
  have hf := h.2
  match fs, hf with
  | [], _ => exact .inr rfl
  | .array i rest :: fs, hf => exact finishAll_frames hf nofun
  | .names i rest :: fs, hf => exact finishAll_frames hf nofun
  | .value n v rest :: fs, hf =>
    show (∃ t, tops.head? = some t ∧ DeepStop st (depth t) (match Cur.tooDeep st.maxNestingDepth ⟨.value n v rest :: fs, b, tops, false⟩ (depth v) with
      | some n => Step.stop (.depth n)
      | none => finishAll st (fs.length + 1) (Cur.advance ⟨.value n v rest :: fs, b, tops, false⟩))) ∨ (match Cur.tooDeep st.maxNestingDepth ⟨.value n v rest :: fs, b, tops, false⟩ (depth v) with
      | some n => Step.stop (.depth n)
      | none => finishAll st (fs.length + 1) (Cur.advance ⟨.value n v rest :: fs, b, tops, false⟩)) = _
    cases hd : Cur.tooDeep st.maxNestingDepth ⟨.value n v rest :: fs, b, tops, false⟩ (depth v) with
    | some n =>
      obtain ⟨t, h1, h2⟩ := frames_depth (b := true) (x := false) (v := v) hf rfl
      exact .inl ⟨t, h1, n, (tooDeep_some hd).1, Nat.lt_of_lt_of_le (tooDeep_some hd).2 h2, rfl⟩
    | none =>
      have := finishAll_frames (st := st) (b := b) (x := false) (h.advance (v := v) rfl).2 nofun
      exact this

end Verif.Cursor
