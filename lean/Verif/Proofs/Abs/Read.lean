import Verif.Proofs.Abs.Walk
import Verif.Proofs.Abs.Reach
/-! # Reading complete values -/

namespace Verif.Abs
open Reader Utf8 Json Prog

section
variable {st : Settings} {inp : Bytes} {g : Prop} {c : Ctx} {l : Lead} {v : Cst} {pos : Pos} {r : Bytes} {s s' : St} {n : Nat}

/-- what `readValue` does for each type -/
def readBranch (n : Nat) : ValueType → Prog JVal
    | .null => do
      unitCall .nextNull
      pure .null
    | .boolean => do
      let b ← boolCall .nextBool
      pure (.bool b)
    | .number => do
      let t ← textCall .nextNumberAsString
      pure (.num t)
    | .string => do
      let t ← textCall .nextString
      pure (.str t)
    | .array => do
      unitCall .beginArray
      let vs ← readItems n
      unitCall .endArray
      pure (.arr vs)
    | .object => do
      unitCall .beginObject
      let ms ← readMembers n
      unitCall .endObject
      pure (.obj ms)

theorem readValue_toR (n : Nat) : (readValue (n + 1)).toR (σ := AbsSrc) = Reader.peek >>= fun t => (readBranch n t).toR := by
  have : readValue (n + 1) = typeCall .peek >>= readBranch n := rfl
  rw [this, toR_bind, toR_peek]

theorem readBranch_null : (readBranch n .null).toR (σ := AbsSrc) = nextNull >>= fun _ => pure .null := by
  unfold readBranch
  rw [toR_bind, toR_unit (m := nextNull) rfl]
  rfl
theorem readBranch_bool : (readBranch n .boolean).toR (σ := AbsSrc) = nextBool >>= fun b => pure (.bool b) := by
  unfold readBranch
  rw [toR_bind, toR_bool (m := nextBool) rfl]
  rfl
theorem readBranch_number : (readBranch n .number).toR (σ := AbsSrc) = nextNumberAsString >>= fun t => pure (.num t) := by
  unfold readBranch
  rw [toR_bind, toR_text (m := nextNumberAsString) rfl]
  rfl
theorem readBranch_string : (readBranch n .string).toR (σ := AbsSrc) = nextString >>= fun t => pure (.str t) := by
  unfold readBranch
  rw [toR_bind, toR_text (m := nextString) rfl]
  rfl
theorem readBranch_array : (readBranch n .array).toR (σ := AbsSrc) = beginArray >>= fun _ => (readItems n).toR >>= fun vs => endArray >>= fun _ => pure (.arr vs) := by
  unfold readBranch
  simp only [toR_bind, toR_unit (σ := AbsSrc) (op := .beginArray) (m := beginArray) rfl, toR_unit (σ := AbsSrc) (op := .endArray) (m := endArray) rfl, toR_pure]
theorem readBranch_object : (readBranch n .object).toR (σ := AbsSrc) = beginObject >>= fun _ => (readMembers n).toR >>= fun vs => endObject >>= fun _ => pure (.obj vs) := by
  unfold readBranch
  simp only [toR_bind, toR_unit (σ := AbsSrc) (op := .beginObject) (m := beginObject) rfl, toR_unit (σ := AbsSrc) (op := .endObject) (m := endObject) rfl, toR_pure]

theorem readItems_toR : (readItems (n + 1)).toR (σ := AbsSrc) = hasNext >>= fun b => if b then (readValue n).toR >>= fun v => (readItems n).toR >>= fun vs => pure (v :: vs) else pure [] := by
  have : readItems (n + 1) = boolCall .hasNext >>= fun b => if b then readValue n >>= fun v => readItems n >>= fun vs => pure (v :: vs) else pure [] := rfl
  rw [this, toR_bind, toR_bool (m := hasNext) rfl]
  congr 1
  funext b
  cases b
  · rfl
  · simp only [if_true, toR_bind, toR_pure]

theorem readMembers_toR : (readMembers (n + 1)).toR (σ := AbsSrc) = hasNext >>= fun b => if b then nextName >>= fun x => (readValue n).toR >>= fun v => (readMembers n).toR >>= fun vs => pure ((x, v) :: vs) else pure [] := by
  have : readMembers (n + 1) = boolCall .hasNext >>= fun b => if b then textCall .nextName >>= fun x => readValue n >>= fun v => readMembers n >>= fun vs => pure ((x, v) :: vs) else pure [] := rfl
  rw [this, toR_bind, toR_bool (m := hasNext) rfl]
  congr 1
  funext b
  cases b
  · rfl
  · simp only [if_true, toR_bind, toR_pure, toR_text (σ := AbsSrc) (op := .nextName) (m := nextName) rfl]

/-! ## Soundness -/

/-- the value can be read -/
def Readable (st : Settings) (c : Ctx) (v : Cst) : Prop := v.Nums (fun bs => ¬ Restricted st bs) ∧ Fits st c v.depth

theorem mkItems_values {cl : Sep} {d : List (Sep × Cst)} : (mkItems cl d).values = d.map fun x => x.2.value := by
  induction d with
  | nil => rfl
  | cons x xs ih => simp [mkItems, Items.values, ih]
theorem mkMembers_values {cl : Sep} {d : List Mem} : (mkMembers cl d).values = d.map fun x => (x.name.text, x.v.value) := by
  induction d with
  | nil => rfl
  | cons x xs ih => simp [mkMembers, Members.values, ih]

theorem mkItems_readable {up : Ctx} {lu : Lead} {d0 : List (Sep × Cst)} {cl : Sep} {d : List (Sep × Cst)} (h : ∀ x ∈ d, Readable st (.arr up lu d0) x.2) (hd : DepthOk st (.arr up lu d0)) : Readable st up (.arr (mkItems cl d)) := by
  induction d with
  | nil => exact ⟨trivial, fun n hn => hd n hn⟩
  | cons x xs ih =>
    obtain ⟨h1, h2⟩ := ih fun y hy => h y (List.mem_cons_of_mem _ hy)
    obtain ⟨h3, h4⟩ := h x (List.mem_cons_self ..)
    refine ⟨⟨h3, h1⟩, fun n hn => ?_⟩
    have h5 := h4 n hn
    have h6 := h2 n hn
    simp only [mkItems, Cst.depth, Items.depth, Ctx.stack, List.length_cons] at h5 h6 ⊢
    omega

theorem mkMembers_readable {up : Ctx} {lu : Lead} {d0 : List Mem} {cl : Sep} {d : List Mem} (h : ∀ x ∈ d, Readable st (.obj up lu d0) x.v) (hd : DepthOk st (.obj up lu d0)) : Readable st up (.obj (mkMembers cl d)) := by
  induction d with
  | nil => exact ⟨trivial, fun n hn => hd n hn⟩
  | cons x xs ih =>
    obtain ⟨h1, h2⟩ := ih fun y hy => h y (List.mem_cons_of_mem _ hy)
    obtain ⟨h3, h4⟩ := h x (List.mem_cons_self ..)
    refine ⟨⟨h3, h1⟩, fun n hn => ?_⟩
    have h5 := h4 n hn
    have h6 := h2 n hn
    simp only [mkMembers, Cst.depth, Members.depth, Ctx.stack, List.length_cons] at h5 h6 ⊢
    omega

theorem At.depth (h : At st inp g c s) : DepthOk st c := by
  cases h with
  | n h => exact h.depth.stack
  | p h => exact h.depth.stack

theorem At.deep (h : At st inp g c s) : DeepOk st c := by
  cases h with
  | n h => exact h.depth
  | p h => exact h.depth

/-- a value has been read -/
def ReadPost (st : Settings) (inp : Bytes) (g : Prop) (c : Ctx) (s : St) (v : JVal) (s' : St) : Prop :=
  ∃ cst : Cst, cst.value = v ∧ Readable st c cst ∧ VPost st inp g c s cst s'

theorem VPost.mu_mono {s0 : St} (h : VPost st inp g c s v s') (hm : mu s ≤ mu s0) : VPost st inp g c s0 v s' := by
  obtain ⟨l, pos, r, h1, h2, h3, h4⟩ := h
  exact ⟨l, pos, r, h1, h2, h3, Nat.lt_of_lt_of_le h4 hm⟩

theorem scalar_readable (h : At st inp g c s) (hd : v.depth = 0) (hn : v.Nums fun bs => ¬ Restricted st bs) : Readable st c v :=
  ⟨hn, fun n hm => by rw [hd]; exact h.depth n hm⟩

theorem read_wp : ∀ n,
    (∀ {c s}, At st inp g c s → CanPeek st c → c.emn = false → 2 * mu s < n → Wp (readValue n).toR s (ReadPost st inp g c s) (EOk st inp g fun _ => True)) ∧
    (∀ {up lu d s}, At st inp g (.arr up lu d) s → 2 * mu s + 1 < n → Wp (readItems n).toR s (fun vs s' => ∃ xs : List (Sep × Cst), (xs.map fun x => x.2.value) = vs ∧
      (∀ x ∈ xs, Readable st (.arr up lu d) x.2) ∧ At st inp g (.arr up lu (d ++ xs)) s' ∧ mu s' ≤ mu s) (EOk st inp g fun _ => True)) ∧
    (∀ {up lu d s}, At st inp g (.obj up lu d) s → 2 * mu s + 1 < n → Wp (readMembers n).toR s (fun vs s' => ∃ xs : List Mem, (xs.map fun x => (x.name.text, x.v.value)) = vs ∧
      (∀ x ∈ xs, Readable st (.obj up lu d) x.v) ∧ At st inp g (.obj up lu (d ++ xs)) s' ∧ mu s' ≤ mu s) (EOk st inp g fun _ => True)) := by
  intro n
  induction n with
  | zero => exact ⟨fun _ _ _ h => absurd h (Nat.not_lt_zero _), fun _ h => absurd h (Nat.not_lt_zero _), fun _ h => absurd h (Nat.not_lt_zero _)⟩
  | succ n ih =>
    obtain ⟨ihv, ihi, ihm⟩ := ih
    refine ⟨?_, ?_, ?_⟩
    · intro c s h hc he hn
      rw [readValue_toR]
      refine Wp.bind' (peek_wp h hc he) ?_
      rintro _ s' ⟨p, l, pos, r, hv, rfl, hs', hP, hm⟩
      have h' : At st inp g c s' := by rw [hs']; exact .p hP
      clear hs' hP
      cases typeOf p with
      | null =>
        rw [readBranch_null]
        refine Wp.bind' (nextNull_wp h' hc he) ?_
        intro _ s2 hv
        exact Wp.pure ⟨.null, rfl, scalar_readable h rfl trivial, hv.mu_mono hm⟩
      | boolean =>
        rw [readBranch_bool]
        refine Wp.bind' (nextBool_wp h' hc he) ?_
        intro b s2 hv
        exact Wp.pure ⟨.bool b, rfl, scalar_readable h rfl trivial, hv.mu_mono hm⟩
      | number =>
        rw [readBranch_number]
        refine Wp.bind' (nextNumberAsString_wp h' hc he) ?_
        rintro _ s2 ⟨bs, _, rfl, hr, hv⟩
        exact Wp.pure ⟨.num bs, rfl, scalar_readable h rfl hr, hv.mu_mono hm⟩
      | string =>
        rw [readBranch_string]
        refine Wp.bind' (nextString_wp h' hc he) ?_
        rintro _ s2 ⟨x, _, rfl, hv⟩
        exact Wp.pure ⟨.str x, rfl, scalar_readable h rfl trivial, hv.mu_mono hm⟩
      | array =>
        rw [readBranch_array]
        refine Wp.bind' (beginArray_wp h' hc he) ?_
        rintro _ s2 ⟨l, pos, r, hs2, hI, hm2⟩
        have h2 : At st inp g (.arr c l []) s2 := by rw [hs2]; exact .n hI
        refine Wp.bind' (ihi h2 (by omega)) ?_
        rintro _ s3 ⟨xs, rfl, hr, h3, hm3⟩
        refine Wp.bind' (endArray_wp h3) ?_
        rintro _ s4 ⟨cl, pos, r, hsl, hs4, hX, hm4⟩
        exact Wp.pure ⟨.arr (mkItems cl xs), by rw [Cst.value, mkItems_values], mkItems_readable hr h2.depth, l, pos, r, hsl, hs4, hX, by omega⟩
      | object =>
        rw [readBranch_object]
        refine Wp.bind' (beginObject_wp h' hc he) ?_
        rintro _ s2 ⟨l, pos, r, hs2, hI, hm2⟩
        have h2 : At st inp g (.obj c l []) s2 := by rw [hs2]; exact .n hI
        refine Wp.bind' (ihm h2 (by omega)) ?_
        rintro _ s3 ⟨xs, rfl, hr, h3, hm3⟩
        refine Wp.bind' (endObject_wp h3) ?_
        rintro _ s4 ⟨cl, pos, r, hsl, hs4, hX, hm4⟩
        exact Wp.pure ⟨.obj (mkMembers cl xs), by rw [Cst.value, mkMembers_values], mkMembers_readable hr h2.depth, l, pos, r, hsl, hs4, hX, by omega⟩
    · intro up lu d s h hn
      rw [readItems_toR]
      refine Wp.bind' (hasNext_wp h rfl rfl) ?_
      rintro b s1 ⟨p, l, pos, r, -, hs1, hP, hm1⟩
      have h1 : At st inp g (.arr up lu d) s1 := by rw [hs1]; exact .p hP
      clear hs1 hP
      cases b with
      | false => exact Wp.pure ⟨[], rfl, (by simp), (by rw [List.append_nil]; exact h1), hm1⟩
      | true =>
        rw [if_pos rfl]
        refine Wp.bind' (ihv h1 (CanPeek.of_ne_top (by rintro _ ⟨⟩)) rfl (by omega)) ?_
        rintro _ s2 ⟨cst, rfl, hr, l, pos, r, hsl, hs2, hX, hm2⟩
        cases l with
        | ws => exact hsl.elim
        | colon => exact hsl.elim
        | sep sp =>
        have h2 : At st inp g (.arr up lu (d ++ [(sp, cst)])) s2 := by rw [hs2]; exact .n hX.toInvN
        refine Wp.bind' (ihi h2 (by omega)) ?_
        rintro _ s3 ⟨xs, rfl, hr', h3, hm3⟩
        refine Wp.pure ⟨(sp, cst) :: xs, rfl, ?_, ?_, by omega⟩
        · intro x hx
          rcases List.mem_cons.1 hx with rfl | hx
          · exact hr
          · exact hr' x hx
        · rw [show d ++ (sp, cst) :: xs = d ++ [(sp, cst)] ++ xs by simp]
          exact h3
    · intro up lu d s h hn
      rw [readMembers_toR]
      refine Wp.bind' (hasNext_wp h rfl rfl) ?_
      rintro b s1 ⟨p, l, pos, r, -, hs1, hP, hm1⟩
      have h1 : At st inp g (.obj up lu d) s1 := by rw [hs1]; exact .p hP
      clear hs1 hP
      cases b with
      | false => exact Wp.pure ⟨[], rfl, (by simp), (by rw [List.append_nil]; exact h1), hm1⟩
      | true =>
        rw [if_pos rfl]
        refine Wp.bind' (nextName_wp h1) ?_
        rintro _ s2 ⟨x, rfl, hx, sp, pos, r, hs2, hN, hm2⟩
        have h2 : At st inp g (.val up lu d sp x) s2 := by rw [hs2]; exact .n hN
        refine Wp.bind' (ihv h2 (CanPeek.of_ne_top (by rintro _ ⟨⟩)) rfl (by omega)) ?_
        rintro _ s3 ⟨cst, rfl, hr, l, pos, r, hsl, hs3, hX, hm3⟩
        cases l with
        | ws => exact hsl.elim
        | sep => exact hsl.elim
        | colon w1 w2 =>
        have h3 : At st inp g (.obj up lu (d ++ [(⟨sp, x, w1, w2, cst⟩ : Mem)])) s3 := by rw [hs3]; exact .n hX.toInvN
        refine Wp.bind' (ihm h3 (by omega)) ?_
        rintro _ s4 ⟨xs, rfl, hr', h4, hm4⟩
        refine Wp.pure ⟨⟨sp, x, w1, w2, cst⟩ :: xs, rfl, ?_, ?_, by omega⟩
        · intro y hy
          rcases List.mem_cons.1 hy with rfl | hy
          · exact hr
          · exact hr' y hy
        · rw [show d ++ (⟨sp, x, w1, w2, cst⟩ : Mem) :: xs = d ++ [⟨sp, x, w1, w2, cst⟩] ++ xs by simp]
          exact h4

/-! ## Completeness -/

mutual
/-- steps which are needed for reading -/
def stepsV : Cst → Nat
  | .arr is => stepsI is + 1
  | .obj ms => stepsM ms + 1
  | _ => 1
def stepsI : Items → Nat
  | .nil _ => 1
  | .cons _ v rest => max (stepsV v) (stepsI rest) + 1
def stepsM : Members → Nat
  | .nil _ => 1
  | .cons _ _ _ _ v rest => max (stepsV v) (stepsM rest) + 1
end

mutual
theorem stepsV_le {cfg : Cfg} (v : Cst) (h : v.Ok cfg) : 1 ≤ stepsV v ∧ stepsV v ≤ v.bytes.length := by
  cases v with
  | null => exact ⟨Nat.le_refl _, by simp [stepsV, Cst.bytes]⟩
  | bool b => exact ⟨Nat.le_refl _, by cases b <;> simp [stepsV, Cst.bytes]⟩
  | num bs => exact ⟨Nat.le_refl _, List.length_pos_iff.2 (Cst.noCr h).2⟩
  | str x => exact ⟨Nat.le_refl _, List.length_pos_iff.2 (Cst.noCr h).2⟩
  | arr is =>
    have := stepsI_le true is h
    exact ⟨Nat.le_add_left .., Nat.succ_le_succ this.2⟩
  | obj ms =>
    have := stepsM_le true ms h
    exact ⟨Nat.le_add_left .., Nat.succ_le_succ this.2⟩
theorem stepsI_le {cfg : Cfg} (first : Bool) (is : Items) (h : is.Ok cfg first) : 1 ≤ stepsI is ∧ stepsI is ≤ is.bytes.length := by
  cases is with
  | nil => simp [stepsI, Items.bytes]
  | cons sp v rest =>
    have h1 := stepsI_le false rest h.2.2
    have h2 := stepsV_le v h.2.1
    simp only [stepsI, Items.bytes, List.length_append]
    omega
theorem stepsM_le {cfg : Cfg} (first : Bool) (ms : Members) (h : ms.Ok cfg first) : 1 ≤ stepsM ms ∧ stepsM ms ≤ ms.bytes.length := by
  cases ms with
  | nil => simp [stepsM, Members.bytes]
  | cons sp n w1 w2 v rest =>
    have h1 := stepsM_le false rest h.2.2.2.2.2
    have h2 := stepsV_le v h.2.2.2.2.1
    simp only [stepsM, Members.bytes, List.length_append, List.length_cons]
    omega
end

theorem Readable.arr_items {is : Items} (h : Readable st c (.arr is)) (d : List (Sep × Cst)) : is.Nums (fun bs => ¬ Restricted st bs) ∧ Fits st (.arr c l d) is.depth :=
  ⟨h.1, h.2.mono (by simp [Ctx.stack, Cst.depth]; omega)⟩
theorem Readable.obj_members {ms : Members} (h : Readable st c (.obj ms)) (d : List Mem) : ms.Nums (fun bs => ¬ Restricted st bs) ∧ Fits st (.obj c l d) ms.depth :=
  ⟨h.1, h.2.mono (by simp [Ctx.stack, Cst.depth]; omega)⟩

mutual
theorem readV_ok (v : Cst) : ∀ {c : Ctx} {l : Lead} {pos : Pos} {r : Bytes} {s : St} {n : Nat}, Front st c s l v pos r → Readable st c v → stepsV v ≤ n →
    (readValue n).toR.run s = .ok v.value (behind st c l v pos r) := by
  intro c l pos r s n h hr hn
  obtain ⟨n, rfl⟩ : ∃ k, n = k + 1 := ⟨n - 1, by have := (stepsV_le v h.ok).1; omega⟩
  obtain ⟨s1, hp, h1⟩ := h.peekOp
  rw [readValue_toR, M.bind_ok hp]
  cases v with
  | null =>
    show ((readBranch n .null).toR).run s1 = _
    rw [readBranch_null, M.bind_ok h1.nextNull]; rfl
  | bool b =>
    have : typeOf (startOf (.bool b)) = .boolean := by cases b <;> rfl
    rw [this, readBranch_bool, M.bind_ok h1.nextBool]; rfl
  | num bs =>
    show ((readBranch n .number).toR).run s1 = _
    rw [readBranch_number, M.bind_ok (h1.nextNumberAsString hr.1)]; rfl
  | str x =>
    show ((readBranch n .string).toR).run s1 = _
    rw [readBranch_string, M.bind_ok h1.nextString]; rfl
  | arr is =>
    show ((readBranch n .array).toR).run s1 = _
    obtain ⟨s2, hb, h2⟩ := h1.beginArray hr.2.tooDeep
    obtain ⟨s3, h3, h4⟩ := readI_ok is h2 (hr.arr_items []) (n := n) (by simp only [stepsV] at hn; omega)
    rw [readBranch_array, M.bind_ok hb, M.bind_ok h3, M.bind_ok (h4 (.arr is)), over_arr]
    rfl
  | obj ms =>
    show ((readBranch n .object).toR).run s1 = _
    obtain ⟨s2, hb, h2⟩ := h1.beginObject hr.2.tooDeep
    obtain ⟨s3, h3, h4⟩ := readM_ok ms h2 (hr.obj_members []) (n := n) (by simp only [stepsV] at hn; omega)
    rw [readBranch_object, M.bind_ok hb, M.bind_ok h3, M.bind_ok (h4 (.obj ms)), over_obj]
    rfl
theorem readI_ok (is : Items) : ∀ {up : Ctx} {lu : Lead} {done : List (Sep × Cst)} {pos : Pos} {r : Bytes} {s : St} {n : Nat}, AtItems st up lu done is pos r s →
    is.Nums (fun bs => ¬ Restricted st bs) ∧ Fits st (.arr up lu done) is.depth → stepsI is ≤ n →
    ∃ s', (readItems n).toR.run s = .ok is.values s' ∧ ∀ V, endArray.run s' = .ok () (stp st (up.add lu V) (pos.over is.bytes) none r) := by
  intro up lu done pos r s n h hr hn
  obtain ⟨n, rfl⟩ : ∃ k, n = k + 1 := ⟨n - 1, by have := (stepsI_le _ is h.ok).1; omega⟩
  obtain ⟨s1, hp, h1⟩ := h.hasNext
  rw [readItems_toR, M.bind_ok hp]
  cases is with
  | nil cl => exact ⟨s1, rfl, fun V => h1.endArray V⟩
  | cons sp v rest =>
    simp only [stepsI] at hn
    have hv := readV_ok v h1.front (n := n) ⟨hr.1.1, hr.2.mono (by simp only [Items.depth]; omega)⟩ (by omega)
    obtain ⟨s3, h3, h4⟩ := readI_ok rest h1.next (n := n) ⟨hr.1.2, hr.2.mono (by simp only [Items.depth, Ctx.stack]; omega)⟩ (by omega)
    refine ⟨s3, ?_, fun V => ?_⟩
    · rw [show moreI (.cons sp v rest) = true from rfl, if_pos rfl, M.bind_ok hv, M.bind_ok h3]
      rfl
    · rw [h4, over_items h.ok.2.1]
theorem readM_ok (ms : Members) : ∀ {up : Ctx} {lu : Lead} {done : List Mem} {pos : Pos} {r : Bytes} {s : St} {n : Nat}, AtMembers st up lu done ms pos r s →
    ms.Nums (fun bs => ¬ Restricted st bs) ∧ Fits st (.obj up lu done) ms.depth → stepsM ms ≤ n →
    ∃ s', (readMembers n).toR.run s = .ok ms.values s' ∧ ∀ V, endObject.run s' = .ok () (stp st (up.add lu V) (pos.over ms.bytes) none r) := by
  intro up lu done pos r s n h hr hn
  obtain ⟨n, rfl⟩ : ∃ k, n = k + 1 := ⟨n - 1, by have := (stepsM_le _ ms h.ok).1; omega⟩
  obtain ⟨s1, hp, h1⟩ := h.hasNext
  rw [readMembers_toR, M.bind_ok hp]
  cases ms with
  | nil cl => exact ⟨s1, rfl, fun V => h1.endObject V⟩
  | cons sp x w1 w2 v rest =>
    simp only [stepsM] at hn
    have hv := readV_ok v h1.front (n := n) ⟨hr.1.1, hr.2.mono (by simp only [Members.depth, Ctx.stack]; omega)⟩ (by omega)
    obtain ⟨s3, h3, h4⟩ := readM_ok rest h1.next (n := n) ⟨hr.1.2, hr.2.mono (by simp only [Members.depth, Ctx.stack]; omega)⟩ (by omega)
    refine ⟨s3, ?_, fun V => ?_⟩
    · rw [show moreM (.cons sp x w1 w2 v rest) = true from rfl, if_pos rfl, M.bind_ok h1.nextName]
      refine (M.bind_ok hv).trans ?_
      rw [M.bind_ok h3]
      rfl
    · rw [h4, over_members h.ok.2.2.2.2.1]
end

/-- a value is read completely -/
theorem Front.readValue (h : Front st c s l v pos r) (hr : Readable st c v) (hn : v.bytes.length ≤ n) : (Prog.readValue n).toR.run s = .ok v.value (behind st c l v pos r) :=
  readV_ok v h hr (Nat.le_trans (stepsV_le v h.ok).2 hn)

end
end Verif.Abs
