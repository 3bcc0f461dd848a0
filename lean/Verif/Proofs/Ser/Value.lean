import Verif.Spec.Ser
import Verif.Proofs.Transfer.Value
/-!
# The serializer writes the JSON value of a value of the Serde data model
-/

namespace Verif.Ser
open Writer Json SerSpec
open WSpec (Written Step Steps Denotes Rejected Frame)
open Transfer (step_emits add_str)

variable {wst : WSettings} {w w' w'' : Written}

/-! ## Decimal representation -/

theorem natToString_eq (n : Nat) : natToString n = Nat.toDigits 10 n := by
  induction n using Nat.strongRecOn with
  | _ n ih =>
    have hd : ∀ d < 10, Char.ofNat (0x30 + d) = Nat.digitChar d := by decide
    by_cases h : n < 10
    · rw [natToString_small h, Nat.toDigits_of_lt_base h, hd n h]
    · rw [natToString_big h, Nat.toDigits_of_base_le (by decide) (by omega), ih (n / 10) (by omega), hd _ (Nat.mod_lt _ (by decide))]

theorem decimal_eq (i : Int) : intToString i = decimal i := by
  unfold intToString decimal
  rw [natToString_eq]

/-! ## Programs -/

/-- `m` writes what leads from `w` to `w'` -/
def Runs (wst : WSettings) (m : S Unit) (w w' : Written) : Prop := ∀ c, WInv wst c w → WOk wst w →
  ∃ bs c', Emits m c bs () c' ∧ w'.bytes wst = w.bytes wst ++ bs ∧ WInv wst c' w' ∧ WOk wst w'

/-- `m` fails -/
def Fails (wst : WSettings) (m : S Unit) (w : Written) (e : SerErr) : Prop := ∀ c, WInv wst c w → WOk wst w →
  ∃ bs c' w', Errs m c bs e c' ∧ w'.bytes wst = w.bytes wst ++ bs ∧ WInv wst c' w' ∧ WOk wst w'

/-- `m` either succeeds or fails -/
def Ends {α : Type} (wst : WSettings) (m : S Unit) (w : Written) (r : Except SerErr α) (f : α → Written) : Prop := match r with
  | .ok a => Runs wst m w (f a)
  | .error e => Fails wst m w e

theorem Runs.bind {m : S Unit} {k : Unit → S Unit} (h : Runs wst m w w') (hk : Runs wst (k ()) w' w'') : Runs wst (m >>= k) w w'' := by
  intro c hi hok
  obtain ⟨b1, c1, h1, h2, h3, h4⟩ := h c hi hok
  obtain ⟨b2, c2, g1, g2, g3, g4⟩ := hk c1 h3 h4
  exact ⟨_, c2, h1.bind g1, by rw [g2, h2, List.append_assoc], g3, g4⟩

theorem Runs.fail {m : S Unit} {k : Unit → S Unit} {e : SerErr} (h : Runs wst m w w') (hk : Fails wst (k ()) w' e) : Fails wst (m >>= k) w e := by
  intro c hi hok
  obtain ⟨b1, c1, h1, h2, h3, h4⟩ := h c hi hok
  obtain ⟨b2, c2, w2, g1, g2, g3, g4⟩ := hk c1 h3 h4
  exact ⟨_, c2, w2, h1.bind_err g1, by rw [g2, h2, List.append_assoc], g3, g4⟩

theorem Fails.bind {m : S Unit} {k : Unit → S Unit} {e : SerErr} (h : Fails wst m w e) : Fails wst (m >>= k) w e := by
  intro c hi hok
  obtain ⟨b1, c1, w1, h1, h2⟩ := h c hi hok
  exact ⟨b1, c1, w1, h1.bind, h2⟩

theorem Runs.ends {α : Type} {m : S Unit} {k : Unit → S Unit} {r : Except SerErr α} {f : α → Written} (h : Runs wst m w w') (hk : Ends wst (k ()) w' r f) : Ends wst (m >>= k) w r f := by
  cases r with
  | ok a => exact Runs.bind h hk
  | error e => exact Runs.fail h hk

/-- the following part does not fail -/
theorem Ends.bind {α : Type} {m : S Unit} {k : Unit → S Unit} {r : Except SerErr α} {f g : α → Written} (h : Ends wst m w r f) (hk : ∀ a, Runs wst (k ()) (f a) (g a)) :
    Ends wst (m >>= k) w r g := by
  cases r with
  | ok a => exact Runs.bind h (hk a)
  | error e => exact Fails.bind h

theorem Ends.map {α β : Type} {m : S Unit} {r : Except SerErr α} {f : α → Written} {g : β → Written} {h : α → β} (he : Ends wst m w r f) (hf : ∀ a, f a = g (h a)) :
    Ends wst m w (r.map h) g := by
  cases r with
  | ok a =>
    show Runs wst m w (g (h a))
    rw [← hf a]
    exact he
  | error e => exact he

theorem runs_pure : Runs wst (pure ()) w w := fun c hi hok => ⟨[], c, emits_pure, (List.append_nil _).symm, hi, hok⟩
theorem fails_fail {e : SerErr} : Fails wst (T.fail e) w e := fun c hi hok => ⟨[], c, w, errs_fail, (List.append_nil _).symm, hi, hok⟩

theorem onWriter_emits {α : Type} {m : W α} {c c' : Core} {bs : Bytes} {a : α} (h : Emits m c bs a c') : Emits (onWriter m) c bs a c' := by
  unfold Emits at *
  show ((m.run c).bind _).ideal = _
  rw [ideal_bind, h]
  dsimp only
  rw [Tree.ideal, List.append_nil]

theorem onWriter_errs {α : Type} {m : W α} {c c' : Core} {bs : Bytes} {e : WErr} (h : Errs m c bs e c') : Errs (onWriter m) c bs (convertErr e) c' := by
  unfold Errs at *
  show ((m.run c).bind _).ideal = _
  rw [ideal_bind, h]
  dsimp only
  rw [Tree.ideal, List.append_nil]

/-- an allowed call -/
theorem runs_step {op : WOp} {m : W Unit} (hop : OpOk op) (hs : Step wst w op w') (hw : w'.str = none) (hr : ¬ Rejected op) (hm : wop op = (m >>= fun _ => pure .unit)) :
    Runs wst (onWriter m) w w' := by
  intro c hi hok
  obtain ⟨bs, c', h1, h2, h3⟩ := step_emits hi hok hop hs hw hr hm
  exact ⟨bs, c', onWriter_emits h1, h2, h3, hok.step hs⟩

/-- a call which writes a value -/
theorem runs_value {op : WOp} {m : W Unit} {v : JVal} (hop : OpOk op) (hc : w.CanAdd wst) (hd : Denotes op v) (hr : ¬ Rejected op) (hm : wop op = (m >>= fun _ => pure .unit)) :
    Runs wst (onWriter m) w (w.add v) :=
  runs_step hop (.value hc hd) (by rw [add_str]; exact hc.1) hr hm

theorem runs_beginArray (hc : w.CanAdd wst) : Runs wst (onWriter beginArray) w ⟨w.tops, .arr [] :: w.frames, none⟩ := by
  have := runs_step (op := .beginArray) (m := beginArray) trivial (.beginArray hc) hc.1 (by rintro ⟨⟩) rfl
  obtain ⟨tops, fs, str⟩ := w
  obtain rfl : str = none := hc.1
  exact this

theorem runs_beginObject (hc : w.CanAdd wst) : Runs wst (onWriter beginObject) w ⟨w.tops, .obj [] none :: w.frames, none⟩ := by
  have := runs_step (op := .beginObject) (m := beginObject) trivial (.beginObject hc) hc.1 (by rintro ⟨⟩) rfl
  obtain ⟨tops, fs, str⟩ := w
  obtain rfl : str = none := hc.1
  exact this

theorem runs_endArray {vs : List JVal} (hc : w.str = none) : Runs wst (onWriter endArray) ⟨w.tops, .arr vs :: w.frames, none⟩ (w.add (.arr vs)) := by
  obtain ⟨tops, fs, str⟩ := w
  obtain rfl : str = none := hc
  exact runs_step (op := .endArray) trivial .endArray add_str (by rintro ⟨⟩) rfl

theorem runs_endObject {ms : List (Text × JVal)} (hc : w.str = none) : Runs wst (onWriter endObject) ⟨w.tops, .obj ms none :: w.frames, none⟩ (w.add (.obj ms)) := by
  obtain ⟨tops, fs, str⟩ := w
  obtain rfl : str = none := hc
  exact runs_step (op := .endObject) trivial .endObject add_str (by rintro ⟨⟩) rfl

theorem runs_name {tops : List JVal} {ms : List (Text × JVal)} {fs : List Frame} {n : Text} :
    Runs wst (onWriter (Writer.name n)) ⟨tops, .obj ms none :: fs, none⟩ ⟨tops, .obj ms (some n) :: fs, none⟩ :=
  runs_step (op := .name n) trivial .name rfl (by rintro ⟨⟩) rfl

theorem runs_int (t : IntTy) (i : Int) (hc : w.CanAdd wst) : Runs wst (onWriter (numberValue (.int t i))) w (w.add (.num (decimal i))) :=
  runs_value (op := .numberValue (.int t i)) trivial hc (.int t i _ (decimal_eq i ▸ intToString_isInteger i)) (by rintro ⟨⟩) rfl

theorem ends_float {f : FpNum} (hf : f.finite = true → IsNumber (enc f.text)) (hc : w.CanAdd wst) :
    Ends wst (onWriter (fpNumberValue f)) w (if f.finite then .ok (.num f.text) else .error .invalidNumber) w.add := by
  obtain ⟨b, t⟩ := f
  cases b with
  | true => exact runs_value (op := .fpNumberValue ⟨true, t⟩) hf hc (.float t (hf rfl)) (by rintro ⟨⟩) rfl
  | false =>
    intro c hi hok
    refine ⟨[], c, w, onWriter_errs (e := .invalidNumber) ?_, (List.append_nil _).symm, hi, hok⟩
    exact errs_fail

/-! ## Keys -/

theorem key_runs {tops : List JVal} {ms : List (Text × JVal)} {fs : List Frame} : (k : SVal) → Ok k →
    Ends wst (serializeKey k) ⟨tops, .obj ms none :: fs, none⟩ (keyText k) fun t => ⟨tops, .obj ms (some t) :: fs, none⟩
  | .bool true, _ => runs_name
  | .bool false, _ => runs_name
  | .int _ i, _ => by
    rw [serializeKey, keyText, ← decimal_eq, finiteNumberKey, FinNum.useJsonNumber]
    rw [if_pos ((isValid_iff _).2 (isInteger_number (intToString_isInteger i)))]
    exact runs_name
  | .float ⟨true, t⟩, h => by
    rw [serializeKey, keyText, fpNumberKey, FpNum.useJsonNumber, if_pos rfl, if_pos rfl, if_pos ((isValid_iff _).2 (h rfl))]
    exact runs_name (n := t)
  | .float ⟨false, t⟩, _ => fun c hi hok => ⟨[], c, _, onWriter_errs (e := .invalidNumber) errs_fail, (List.append_nil _).symm, hi, hok⟩
  | .char c, _ => runs_name
  | .str t, _ => runs_name
  | .bytes _, _ => fails_fail
  | .none, _ => fails_fail
  | .some v, h => by
    rw [serializeKey, keyText]
    exact key_runs v h
  | .unit, _ => fails_fail
  | .unitStruct, _ => fails_fail
  | .unitVariant _, _ => runs_name
  | .newtypeStruct v, h => by
    rw [serializeKey, keyText]
    exact key_runs v h
  | .newtypeVariant _ _, _ => fails_fail
  | .seq _ _, _ => fails_fail
  | .tuple _ _, _ => fails_fail
  | .tupleStruct _ _, _ => fails_fail
  | .tupleVariant _ _ _, _ => fails_fail
  | .map _ _, _ => fails_fail
  | .struct _ _, _ => fails_fail
  | .structVariant _ _ _, _ => fails_fail
  | .custom _, _ => fails_fail

/-! ## Counting -/

/-- `counted` after `len` elements -/
def countedFrom {α : Type} (len n : Nat) (rs : List (Except SerErr α)) : Except SerErr (List α) :=
  match sequence (rs.take (n - len)) with
  | .error e => .error e
  | .ok xs => if rs.length + len = n then .ok xs else .error (.incorrectElementsCount n (min (rs.length + len) (n + 1)))

section
variable {α : Type} {len n : Nat} {rs : List (Except SerErr α)}

theorem countedFrom_zero : countedFrom 0 n rs = counted n rs := rfl

theorem countedFrom_nil (h : len ≤ n) : countedFrom len n ([] : List (Except SerErr α)) = if len < n then .error (.incorrectElementsCount n len) else .ok [] := by
  unfold countedFrom
  rw [List.take_nil, sequence]
  dsimp only
  rw [List.length_nil, Nat.zero_add]
  by_cases hn : len = n
  · rw [if_pos hn, if_neg (by omega)]
  · rw [if_neg hn, if_pos (by omega), Nat.min_eq_left (by omega)]

theorem countedFrom_full {r : Except SerErr α} (h : n ≤ len) (h' : len ≤ n) : countedFrom len n (r :: rs) = .error (.incorrectElementsCount n (len + 1)) := by
  obtain rfl : len = n := by omega
  unfold countedFrom
  rw [Nat.sub_self, List.take_zero, sequence]
  dsimp only
  rw [List.length_cons, if_neg (by omega), Nat.min_eq_right (by omega)]

theorem countedFrom_error {e : SerErr} (h : len < n) : countedFrom len n (.error e :: rs) = .error e := by
  unfold countedFrom
  obtain ⟨d, hd⟩ : ∃ d, n - len = d + 1 := ⟨n - len - 1, by omega⟩
  rw [hd, List.take_succ_cons, sequence]

theorem countedFrom_ok {a : α} (h : len < n) : countedFrom len n (.ok a :: rs) = (countedFrom (len + 1) n rs).map (a :: ·) := by
  unfold countedFrom
  obtain ⟨d, hd⟩ : ∃ d, n - len = d + 1 := ⟨n - len - 1, by omega⟩
  rw [hd, List.take_succ_cons, sequence, show n - (len + 1) = d by omega, List.length_cons, show rs.length + 1 + len = rs.length + (len + 1) by omega]
  cases sequence (List.take d rs) with
  | error e => rfl
  | ok xs =>
    dsimp only [Except.map]
    split <;> rfl

/-- with an optional number of elements -/
def countedFromOpt (len : Nat) : Option Nat → List (Except SerErr α) → Except SerErr (List α)
  | none, rs => sequence rs
  | some n, rs => countedFrom len n rs

theorem countedFromOpt_zero {o : Option Nat} : countedFromOpt 0 o rs = countedOpt o rs := by
  cases o <;> rfl

end

theorem ends_checkEnd {α : Type} {len n : Nat} (h : len ≤ n) {f : List α → Written} (hf : f [] = w) : Ends wst (checkEnd n len) w (countedFrom len n ([] : List (Except SerErr α))) f := by
  rw [countedFrom_nil h, checkEnd]
  split
  · exact fails_fail
  · exact hf ▸ runs_pure

/-! ## Values -/

theorem byteLoop_runs (bs : Bytes) {tops : List JVal} {vs : List JVal} {fs : List Frame} :
    Runs wst (serializeByteLoop bs) ⟨tops, .arr vs :: fs, none⟩ ⟨tops, .arr (vs ++ bs.map fun b => .num (decimal b.toNat)) :: fs, none⟩ := by
  induction bs generalizing vs with
  | nil => rw [List.map_nil, List.append_nil]; exact runs_pure
  | cons b bs ih =>
    rw [serializeByteLoop]
    refine (runs_int .u8 b.toNat ⟨rfl, trivial⟩).bind ?_
    have := ih (vs := vs ++ [.num (decimal b.toNat)])
    rw [List.append_assoc, List.singleton_append] at this
    exact this

mutual
theorem serialize_ends : (v : SVal) → Ok v → ∀ {w : Written}, w.CanAdd wst → Ends wst (serialize v) w (json v) w.add
  | .bool b, _, _, hc => runs_value (op := .boolValue b) trivial hc (.bool b) (by rintro ⟨⟩) rfl
  | .int t i, _, _, hc => runs_int t i hc
  | .float f, h, _, hc => ends_float h hc
  | .char c, _, _, hc => runs_value (op := .stringValue [c]) trivial hc (.string [c]) (by rintro ⟨⟩) rfl
  | .str t, _, _, hc => runs_value (op := .stringValue t) trivial hc (.string t) (by rintro ⟨⟩) rfl
  | .bytes bs, _, w, hc => by
    rw [serialize, json]
    exact (runs_beginArray hc).bind ((byteLoop_runs bs).bind (runs_endArray hc.1))
  | .none, _, _, hc => runs_value (op := .nullValue) trivial hc .null (by rintro ⟨⟩) rfl
  | .some v, h, _, hc => by
    rw [serialize, json]
    exact serialize_ends v h hc
  | .unit, _, _, hc => runs_value (op := .nullValue) trivial hc .null (by rintro ⟨⟩) rfl
  | .unitStruct, _, _, hc => runs_value (op := .nullValue) trivial hc .null (by rintro ⟨⟩) rfl
  | .unitVariant t, _, _, hc => runs_value (op := .stringValue t) trivial hc (.string t) (by rintro ⟨⟩) rfl
  | .newtypeStruct v, h, _, hc => by
    rw [serialize, json]
    exact serialize_ends v h hc
  | .newtypeVariant variant v, h, w, hc => by
    rw [serialize, json]
    refine (runs_beginObject hc).ends (runs_name.ends ?_)
    refine Ends.map (((serialize_ends v h ⟨rfl, trivial⟩).bind fun a => ?_)) fun _ => rfl
    exact runs_endObject (ms := [(variant, a)]) hc.1
  | .seq len vs, h, w, hc => by
    rw [serialize, json, ← countedFromOpt_zero]
    refine (runs_beginArray hc).ends (Ends.map (seq_ends len 0 vs h hc.1 (fun n _ => Nat.zero_le n)) fun _ => rfl)
  | .tuple len vs, h, w, hc => by
    rw [serialize, json, ← countedFrom_zero]
    exact (runs_beginArray hc).ends (Ends.map ((elements_ends len 0 vs h (Nat.zero_le _)).bind fun a => runs_endArray hc.1) fun _ => rfl)
  | .tupleStruct len vs, h, w, hc => by
    rw [serialize, json, ← countedFrom_zero]
    exact (runs_beginArray hc).ends (Ends.map ((elements_ends len 0 vs h (Nat.zero_le _)).bind fun a => runs_endArray hc.1) fun _ => rfl)
  | .tupleVariant variant len vs, h, w, hc => by
    rw [serialize, json, ← countedFrom_zero]
    refine (runs_beginObject hc).ends (runs_name.ends ((runs_beginArray ⟨rfl, trivial⟩).ends ?_))
    refine Ends.map ((elements_ends len 0 vs h (Nat.zero_le _)).bind fun a => ?_) fun _ => rfl
    exact (runs_endArray (w := ⟨w.tops, .obj [] (some variant) :: w.frames, none⟩) rfl).bind (runs_endObject (ms := [(variant, .arr a)]) hc.1)
  | .map len ops, h, w, hc => by
    rw [serialize, json, ← countedFromOpt_zero]
    refine (runs_beginObject hc).ends (Ends.map (map_ends len 0 ops h hc.1 (fun n _ => Nat.zero_le n)) fun _ => rfl)
  | .struct len fs, h, w, hc => by
    rw [serialize, json, ← countedFrom_zero]
    exact (runs_beginObject hc).ends (Ends.map ((fields_ends len 0 fs h (Nat.zero_le _)).bind fun a => runs_endObject hc.1) fun _ => rfl)
  | .structVariant variant len fs, h, w, hc => by
    rw [serialize, json, ← countedFrom_zero]
    refine (runs_beginObject hc).ends (runs_name.ends ((runs_beginObject ⟨rfl, trivial⟩).ends ?_))
    refine Ends.map ((fields_ends len 0 fs h (Nat.zero_le _)).bind fun a => ?_) fun _ => rfl
    exact (runs_endObject (w := ⟨w.tops, .obj [] (some variant) :: w.frames, none⟩) rfl).bind (runs_endObject (ms := [(variant, .obj a)]) hc.1)
  | .custom _, _, _, _ => fails_fail

theorem seq_ends (o : Option Nat) (len : Nat) : (vs : List SVal) → Oks vs → ∀ {w : Written} {xs : List JVal}, w.str = none → (∀ n, o = some n → len ≤ n) →
    Ends wst (serializeSeq o len vs) ⟨w.tops, .arr xs :: w.frames, none⟩ (countedFromOpt len o (jsons vs)) fun js => w.add (.arr (xs ++ js))
  | [], _, w, xs, hw, ho => by
    rw [jsons]
    match o, ho with
    | none, _ =>
      rw [serializeSeq]
      show Runs wst (onWriter endArray) _ (w.add (.arr (xs ++ [])))
      rw [List.append_nil]
      exact runs_endArray hw
    | some n, ho =>
      rw [serializeSeq]
      dsimp only [countedFromOpt]
      exact (ends_checkEnd (f := fun js => ⟨w.tops, .arr (xs ++ js) :: w.frames, none⟩) (ho n rfl) (by rw [List.append_nil])).bind fun _ => runs_endArray hw
  | v :: vs, h, w, xs, hw, ho => by
    rw [jsons]
    have hv := serialize_ends v h.1 (w := ⟨w.tops, .arr xs :: w.frames, none⟩) ⟨rfl, trivial⟩
    match o, ho with
    | none, ho =>
      rw [serializeSeq]
      have ih := fun j => seq_ends none len vs h.2 (xs := xs ++ [j]) hw nofun
      cases hj : json v with
      | error e => rw [hj] at hv; exact Fails.bind hv
      | ok j =>
        rw [hj] at hv
        exact Runs.ends hv (Ends.map (r := sequence (jsons vs)) (ih j) fun js => by rw [List.append_assoc, List.singleton_append])
    | some n, ho =>
      rw [serializeSeq]
      dsimp only [countedFromOpt]
      by_cases hl : n ≤ len
      · rw [if_pos hl, countedFrom_full hl (ho n rfl)]
        exact fails_fail
      · rw [if_neg hl]
        have ih := fun j => seq_ends (some n) (len + 1) vs h.2 (xs := xs ++ [j]) hw (fun m hm => by cases hm; omega)
        cases hj : json v with
        | error e => rw [hj] at hv; rw [countedFrom_error (by omega)]; exact Fails.bind hv
        | ok j =>
          rw [hj] at hv
          rw [countedFrom_ok (by omega)]
          exact Runs.ends hv (Ends.map (ih j) fun js => by rw [List.append_assoc, List.singleton_append])

theorem elements_ends (n len : Nat) : (vs : List SVal) → Oks vs → ∀ {tops : List JVal} {fs : List Frame} {xs : List JVal}, len ≤ n →
    Ends wst (serializeElements n len vs) ⟨tops, .arr xs :: fs, none⟩ (countedFrom len n (jsons vs)) fun js => ⟨tops, .arr (xs ++ js) :: fs, none⟩
  | [], _, tops, fs, xs, ho => by
    rw [serializeElements, jsons]
    exact ends_checkEnd ho (by rw [List.append_nil])
  | v :: vs, h, tops, fs, xs, ho => by
    rw [serializeElements, jsons]
    have hv := serialize_ends v h.1 (w := ⟨tops, .arr xs :: fs, none⟩) ⟨rfl, trivial⟩
    by_cases hl : n ≤ len
    · rw [if_pos hl, countedFrom_full hl ho]
      exact fails_fail
    · rw [if_neg hl]
      have ih := fun j => elements_ends n (len + 1) vs h.2 (tops := tops) (fs := fs) (xs := xs ++ [j]) (by omega)
      cases hj : json v with
      | error e => rw [hj] at hv; rw [countedFrom_error (by omega)]; exact Fails.bind hv
      | ok j =>
        rw [hj] at hv
        rw [countedFrom_ok (by omega)]
        exact Runs.ends hv (Ends.map (ih j) fun js => by rw [List.append_assoc, List.singleton_append])

theorem fields_ends (n len : Nat) : (ms : List (Text × SVal)) → OkFields ms → ∀ {tops : List JVal} {fs : List Frame} {xs : List (Text × JVal)}, len ≤ n →
    Ends wst (serializeFields n len ms) ⟨tops, .obj xs none :: fs, none⟩ (countedFrom len n (fields ms)) fun js => ⟨tops, .obj (xs ++ js) none :: fs, none⟩
  | [], _, tops, fs, xs, ho => by
    rw [serializeFields, fields]
    exact ends_checkEnd ho (by rw [List.append_nil])
  | (name, v) :: ms, h, tops, fs, xs, ho => by
    rw [serializeFields, fields]
    have hv := serialize_ends v h.1 (w := ⟨tops, .obj xs (some name) :: fs, none⟩) ⟨rfl, trivial⟩
    by_cases hl : n ≤ len
    · rw [if_pos hl, countedFrom_full hl ho]
      exact fails_fail
    · rw [if_neg hl]
      have ih := fun j => fields_ends n (len + 1) ms h.2 (tops := tops) (fs := fs) (xs := xs ++ [(name, j)]) (by omega)
      cases hj : json v with
      | error e => rw [hj] at hv; dsimp only [Except.map]; rw [countedFrom_error (by omega)]; exact Runs.fail runs_name (Fails.bind hv)
      | ok j =>
        rw [hj] at hv
        dsimp only [Except.map]
        rw [countedFrom_ok (by omega)]
        exact runs_name.ends (Runs.ends hv (Ends.map (ih j) fun js => by rw [List.append_assoc, List.singleton_append]))

theorem map_ends (o : Option Nat) (len : Nat) : (ops : List MapOp) → OkEntries ops → ∀ {w : Written} {xs : List (Text × JVal)}, w.str = none → (∀ n, o = some n → len ≤ n) →
    Ends wst (serializeMap o len false ops) ⟨w.tops, .obj xs none :: w.frames, none⟩ (countedFromOpt len o (entries ops)) fun js => w.add (.obj (xs ++ js))
  | [], _, w, xs, hw, ho => by
    rw [entries]
    match o, ho with
    | none, _ =>
      rw [serializeMap, if_neg Bool.false_ne_true]
      show Runs wst (onWriter endObject) _ (w.add (.obj (xs ++ [])))
      rw [List.append_nil]
      exact runs_endObject hw
    | some n, ho =>
      rw [serializeMap, if_neg Bool.false_ne_true]
      dsimp only [countedFromOpt]
      exact (ends_checkEnd (f := fun js => ⟨w.tops, .obj (xs ++ js) none :: w.frames, none⟩) (ho n rfl) (by rw [List.append_nil])).bind fun _ => runs_endObject hw
    all_goals nofun
  | .key k :: .value v :: ops, h, w, xs, hw, ho => by
    rw [entries]
    have hk := key_runs (wst := wst) (tops := w.tops) (ms := xs) (fs := w.frames) k h.1
    have hv := fun t => serialize_ends v h.2.1 (w := ⟨w.tops, .obj xs (some t) :: w.frames, none⟩) ⟨rfl, trivial⟩
    match o, ho with
    | none, ho =>
      rw [serializeMap, if_neg Bool.false_ne_true]
      have ih := fun m => map_ends none len ops h.2.2 (xs := xs ++ [m]) hw nofun
      cases hkt : keyText k with
      | error e => rw [hkt] at hk; exact Fails.bind hk
      | ok t =>
        rw [hkt] at hk
        refine Runs.ends hk ?_
        rw [serializeMap, if_neg (by decide)]
        have hv := hv t
        cases hj : json v with
        | error e => rw [hj] at hv; exact Fails.bind hv
        | ok j =>
          rw [hj] at hv
          exact Runs.ends hv (Ends.map (r := sequence (entries ops)) (ih (t, j)) fun js => by rw [List.append_assoc, List.singleton_append])
    | some n, ho =>
      rw [serializeMap, if_neg Bool.false_ne_true]
      dsimp only [countedFromOpt]
      by_cases hl : n ≤ len
      · rw [if_pos hl, countedFrom_full hl (ho n rfl)]
        exact fails_fail
      · rw [if_neg hl]
        have ih := fun m => map_ends (some n) (len + 1) ops h.2.2 (xs := xs ++ [m]) hw (fun m hm => by cases hm; omega)
        cases hkt : keyText k with
        | error e => rw [hkt] at hk; dsimp only [pair]; rw [countedFrom_error (by omega)]; exact Fails.bind hk
        | ok t =>
          rw [hkt] at hk
          dsimp only [pair]
          rw [serializeMap, if_neg (by decide)]
          have hv := hv t
          cases hj : json v with
          | error e => rw [hj] at hv; dsimp only [Except.map]; rw [countedFrom_error (by omega)]; exact Runs.fail hk (Fails.bind hv)
          | ok j =>
            rw [hj] at hv
            dsimp only [Except.map]
            rw [countedFrom_ok (by omega)]
            exact Runs.ends hk (Runs.ends hv (Ends.map (ih (t, j)) fun js => by rw [List.append_assoc, List.singleton_append]))
end

end Verif.Ser
