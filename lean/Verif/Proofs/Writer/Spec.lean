import Verif.Spec.Writer
import Verif.Proofs.Utf8
import Verif.Proofs.Number
import Verif.Proofs.Abs.Ops
/-!
# Properties of the specification of the writer: the layout is valid JSON denoting the values
-/

namespace Verif.WSpec
open Json
open Writer (WSettings)

variable {st : WSettings}

/-! ## Strings -/

theorem hexVal_hexDigit {n : Nat} (h : n < 16) : hexVal (hexDigit n) = some n := by
  have : ∀ n : Fin 16, hexVal (hexDigit n.val) = some n.val := by decide +kernel
  exact this ⟨n, h⟩

theorem hex4_is {n : Nat} (h : n < 0x10000) : (hex4 n).Is n :=
  ⟨_, _, _, _, hexVal_hexDigit (Nat.mod_lt _ (by decide)), hexVal_hexDigit (Nat.mod_lt _ (by decide)), hexVal_hexDigit (Nat.mod_lt _ (by decide)),
    hexVal_hexDigit (Nat.mod_lt _ (by decide)), by omega⟩

theorem char_eq_ofNat {c : Char} {n : Nat} (h : c.toNat = n) : c = Char.ofNat n := by
  rw [← h, Char.ofNat_toNat]

theorem escape_is (c : Char) : (escape c).Is c := by
  unfold escape
  repeat' split
  · rename_i h; subst h; exact .short _ _ rfl
  · rename_i h; subst h; exact .short _ _ rfl
  · rename_i h; exact .short _ _ (by rw [char_eq_ofNat h]; rfl)
  · rename_i h; exact .short _ _ (by rw [char_eq_ofNat h]; rfl)
  · rename_i h; subst h; exact .short _ _ rfl
  · rename_i h; subst h; exact .short _ _ rfl
  · rename_i h; subst h; exact .short _ _ rfl
  · rename_i h; exact .unicode _ _ (hex4_is h)
  · rename_i h
    have := Utf8.char_val_lt c
    have h1 : (c.toNat - 0x10000) / 0x400 < 0x400 := by omega
    exact .pair _ _ _ _ _ (hex4_is (by omega)) (hex4_is (by omega)) (by omega) (by omega) (by omega) (by omega) (by omega)

theorem item_is (c : Char) : (item st c).Is c := by
  unfold item
  split
  · exact escape_is c
  · rename_i h
    unfold mustEscape at h
    exact .char c (by omega) (fun h' => h (.inl h')) (fun h' => h (.inr (.inl h')))

theorem strLit_ok (t : Text) : (strLit st t).Ok := by
  show ItemsAre (t.map (item st)) t
  induction t with
  | nil => exact .nil
  | cons c t ih => exact .cons (item_is c) ih

theorem strLit_text (t : Text) : (strLit st t).text = t := rfl

theorem body_append (t u : Text) : (strLit st (t ++ u)).body = (strLit st t).body ++ (strLit st u).body := by
  simp [strLit, Str.body]

theorem body_cons (c : Char) (u : Text) : (strLit st (c :: u)).body = (item st c).bytes ++ (strLit st u).body := by
  simp [strLit, Str.body]

theorem body_nil : (strLit st []).body = [] := rfl

/-! ## Whitespace -/

theorem gap_ok {b : Bool} (n : Nat) : (gap st n).Ok b := by
  unfold gap
  split
  · intro i hi
    rcases List.mem_cons.1 hi with rfl | hi
    · exact .inr (.inr (.inl rfl))
    · rw [List.eq_of_mem_replicate hi]; exact .inl rfl
  · exact nofun

theorem colonWs_ok {b : Bool} : (colonWs st).Ok b := by
  unfold colonWs
  split
  · intro i hi
    rw [List.mem_singleton.1 hi]; exact .inl rfl
  · exact nofun

theorem sep_ok {cfg : Cfg} (n : Nat) (first : Bool) : (sep st n first).Ok cfg first := by
  unfold sep
  cases first
  · exact ⟨rfl, nofun, gap_ok _⟩
  · exact ⟨rfl, gap_ok _⟩

theorem close_ok {cfg : Cfg} (n : Nat) (first : Bool) : (close st n first).OkEnd cfg first := by
  unfold close
  cases first
  · exact gap_ok _
  · exact nofun

/-! ## Values -/

mutual
/-- all numbers of the value are JSON numbers -/
def JOk : JVal → Prop
  | .num t => IsNumber (enc t)
  | .arr vs => JOks vs
  | .obj ms => JOkm ms
  | _ => True
def JOks : List JVal → Prop
  | [] => True
  | v :: vs => JOk v ∧ JOks vs
def JOkm : List (Text × JVal) → Prop
  | [] => True
  | (_, v) :: ms => JOk v ∧ JOkm ms
end

theorem number_text {t : Text} (h : IsNumber (enc t)) : asciiText (enc t) = t :=
  Utf8.enc_injective (Abs.asciiText_enc (Abs.isNumber_plain h))

mutual
theorem cst_ok {cfg : Cfg} (n : Nat) : ∀ v, JOk v → (cst st n v).Ok cfg
  | .null, _ => trivial
  | .bool _, _ => trivial
  | .num t, h => by rw [cst, Cst.Ok]; rw [JOk] at h; exact h
  | .str t, _ => by rw [cst, Cst.Ok]; exact strLit_ok t
  | .arr vs, h => by rw [cst, Cst.Ok]; rw [JOk] at h; exact items_ok n true vs h
  | .obj ms, h => by rw [cst, Cst.Ok]; rw [JOk] at h; exact members_ok n true ms h
theorem items_ok {cfg : Cfg} (n : Nat) (first : Bool) : ∀ vs, JOks vs → (items st n first vs).Ok cfg first
  | [], _ => by rw [items, Items.Ok]; exact close_ok n first
  | v :: vs, h => by
    rw [items, Items.Ok]; rw [JOks] at h
    exact ⟨sep_ok n first, cst_ok (n + 1) v h.1, items_ok n false vs h.2⟩
theorem members_ok {cfg : Cfg} (n : Nat) (first : Bool) : ∀ vs, JOkm vs → (members st n first vs).Ok cfg first
  | [], _ => by rw [members, Members.Ok]; exact close_ok n first
  | (m, v) :: vs, h => by
    rw [members, Members.Ok]; rw [JOkm] at h
    exact ⟨sep_ok n first, strLit_ok m, nofun, colonWs_ok, cst_ok (n + 1) v h.1, members_ok n false vs h.2⟩
end

mutual
theorem cst_value (n : Nat) : ∀ v, JOk v → (cst st n v).value = v
  | .null, _ => rfl
  | .bool _, _ => rfl
  | .num t, h => by rw [cst, Cst.value]; rw [JOk] at h; rw [number_text h]
  | .str t, _ => by rw [cst, Cst.value]; rfl
  | .arr vs, h => by rw [cst, Cst.value]; rw [JOk] at h; rw [items_values n true vs h]
  | .obj ms, h => by rw [cst, Cst.value]; rw [JOk] at h; rw [members_values n true ms h]
theorem items_values (n : Nat) (first : Bool) : ∀ vs, JOks vs → (items st n first vs).values = vs
  | [], _ => by rw [items, Items.values]
  | v :: vs, h => by
    rw [items, Items.values]; rw [JOks] at h
    rw [cst_value (n + 1) v h.1, items_values n false vs h.2]
theorem members_values (n : Nat) (first : Bool) : ∀ vs, JOkm vs → (members st n first vs).values = vs
  | [], _ => by rw [members, Members.values]
  | (m, v) :: vs, h => by
    rw [members, Members.values]; rw [JOkm] at h
    rw [cst_value (n + 1) v h.1, members_values n false vs h.2]
    rfl
end

theorem isDoc_cst {cfg : Cfg} (v : JVal) (h : JOk v) : IsDoc cfg (cst st 0 v).bytes v :=
  ⟨⟨[], cst st 0 v, ⟨[], none⟩⟩, ⟨nofun, cst_ok 0 v h, nofun, nofun⟩, by simp [Doc.bytes, Ws.bytes, TrailWs.bytes], cst_value 0 v h⟩

/-! ## Bytes of what has been written -/

theorem items_bytes (n : Nat) (first : Bool) (vs : List JVal) :
    (items st n first vs).bytes = openItems st n first vs ++ ((close st n (first && vs.isEmpty)).bytes ++ [0x5D]) := by
  induction vs generalizing first with
  | nil => rw [items, Items.bytes, openItems, List.isEmpty_nil, Bool.and_true]; rfl
  | cons v vs ih =>
    rw [items, Items.bytes, openItems, ih]
    simp

theorem members_bytes (n : Nat) (first : Bool) (vs : List (Text × JVal)) :
    (members st n first vs).bytes = openMembers st n first vs ++ ((close st n (first && vs.isEmpty)).bytes ++ [0x7D]) := by
  induction vs generalizing first with
  | nil => rw [members, Members.bytes, openMembers, List.isEmpty_nil, Bool.and_true]; rfl
  | cons v vs ih =>
    obtain ⟨m, v⟩ := v
    rw [members, Members.bytes, openMembers, ih]
    simp [Ws.bytes]

theorem openItems_append (n : Nat) (first : Bool) (vs : List JVal) (v : JVal) :
    openItems st n first (vs ++ [v]) = openItems st n first vs ++ ((sep st n (first && vs.isEmpty)).bytes ++ (cst st (n + 1) v).bytes) := by
  induction vs generalizing first with
  | nil => simp [openItems]
  | cons w vs ih =>
    rw [List.cons_append, openItems, ih, openItems]
    simp

theorem openMembers_append (n : Nat) (first : Bool) (vs : List (Text × JVal)) (m : Text) (v : JVal) :
    openMembers st n first (vs ++ [(m, v)]) = openMembers st n first vs ++ ((sep st n (first && vs.isEmpty)).bytes ++ ((strLit st m).bytes ++
      (0x3A :: ((colonWs st).bytes ++ (cst st (n + 1) v).bytes)))) := by
  induction vs generalizing first with
  | nil => simp [openMembers]
  | cons w vs ih =>
    obtain ⟨a, b⟩ := w
    rw [List.cons_append, openMembers, ih, openMembers]
    simp

theorem topsBytes_append (vs : List JVal) (v : JVal) : topsBytes st (vs ++ [v]) = topsBytes st vs ++ ((if vs.isEmpty then [] else topSep st) ++ (cst st 0 v).bytes) := by
  cases vs with
  | nil => simp [topsBytes]
  | cons w vs => simp [topsBytes]

/-- adding a value adds its bytes -/
theorem add_bytes {w : Written} (h : w.CanAdd st) (v : JVal) :
    (w.add v).bytes st = w.bytes st ++ (lead st w.tops w.frames ++ (cst st w.frames.length v).bytes) := by
  obtain ⟨tops, frames, str⟩ := w
  obtain ⟨h1, h2⟩ := h
  dsimp only at h1
  subst h1
  cases frames with
  | nil => simp [Written.add, Written.bytes, framesBytes, topsBytes_append, lead]
  | cons f fs =>
    cases f with
    | arr vs => simp [Written.add, Written.bytes, framesBytes, lead, Frame.bytes, openItems_append]
    | obj ms p =>
      cases p with
      | none => exact h2.elim
      | some n => simp [Written.add, Written.bytes, framesBytes, lead, Frame.bytes, openMembers_append]

/-! ## Documents -/

theorem documents_tops {sp : Text} {vs : List JVal} {v : JVal} (hs : st.separator = some sp) (h : JOks (v :: vs)) : Documents st.separator (v :: vs) (topsBytes st (v :: vs)) := by
  induction vs generalizing v with
  | nil => rw [topsBytes, List.flatMap_nil, List.append_nil]; exact .one (isDoc_cst v h.1)
  | cons u vs ih =>
    have := ih (v := u) h.2
    rw [topsBytes, List.flatMap_cons]
    have e : topSep st = enc sp := by rw [topSep, hs]; rfl
    have h2 := Documents.more hs (isDoc_cst (st := st) v h.1) this
    rw [topsBytes] at h2
    rw [List.append_assoc, show List.flatMap _ vs = List.flatMap (fun v => topSep st ++ (cst st 0 v).bytes) vs from rfl]
    simp only [e] at h2 ⊢
    exact h2

theorem documents_of {vs : List JVal} (h : JOks vs) (hne : vs ≠ []) (hl : vs.length ≤ 1 ∨ st.separator ≠ none) : Documents st.separator vs (topsBytes st vs) := by
  cases vs with
  | nil => exact absurd rfl hne
  | cons v vs =>
    cases hs : st.separator with
    | some sp => rw [← hs]; exact documents_tops hs h
    | none =>
      rcases hl with hl | hl
      · have : vs = [] := List.length_eq_zero_iff.1 (by simpa using hl)
        subst this
        rw [topsBytes, List.flatMap_nil, List.append_nil]; exact .one (isDoc_cst v h.1)
      · exact absurd hs hl

mutual
theorem cst_depth (n : Nat) : (v : JVal) → (cst st n v).depth = depth v
  | .null => by rw [cst, Cst.depth, depth] <;> nofun
  | .bool _ => by rw [cst, Cst.depth, depth] <;> nofun
  | .num _ => by rw [cst, Cst.depth, depth] <;> nofun
  | .str _ => by rw [cst, Cst.depth, depth] <;> nofun
  | .arr vs => by rw [cst, Cst.depth, depth, items_depth n true vs]
  | .obj ms => by rw [cst, Cst.depth, depth, members_depth n true ms]
theorem items_depth (n : Nat) (first : Bool) : (vs : List JVal) → (items st n first vs).depth = depthItems vs
  | [] => by rw [items, Items.depth, depthItems]
  | v :: vs => by rw [items, Items.depth, depthItems, cst_depth (n + 1) v, items_depth n false vs]
theorem members_depth (n : Nat) (first : Bool) : (ms : List (Text × JVal)) → (members st n first ms).depth = depthMembers ms
  | [] => by rw [members, Members.depth, depthMembers]
  | (_, v) :: ms => by rw [members, Members.depth, depthMembers, cst_depth (n + 1) v, members_depth n false ms]
end

mutual
theorem cst_nums (P : Bytes → Prop) (n : Nat) : (v : JVal) → ((cst st n v).Nums P ↔ Numbers P v)
  | .null => by rw [cst, Cst.Nums, Numbers] <;> nofun
  | .bool _ => by rw [cst, Cst.Nums, Numbers] <;> nofun
  | .num _ => by rw [cst, Cst.Nums, Numbers]
  | .str _ => by rw [cst, Cst.Nums, Numbers] <;> nofun
  | .arr vs => by rw [cst, Cst.Nums, Numbers, items_nums P n true vs]
  | .obj ms => by rw [cst, Cst.Nums, Numbers, members_nums P n true ms]
theorem items_nums (P : Bytes → Prop) (n : Nat) (first : Bool) : (vs : List JVal) → ((items st n first vs).Nums P ↔ NumbersItems P vs)
  | [] => by rw [items, Items.Nums, NumbersItems]
  | v :: vs => by rw [items, Items.Nums, NumbersItems, cst_nums P (n + 1) v, items_nums P n false vs]
theorem members_nums (P : Bytes → Prop) (n : Nat) (first : Bool) : (ms : List (Text × JVal)) → ((members st n first ms).Nums P ↔ NumbersMembers P ms)
  | [] => by rw [members, Members.Nums, NumbersMembers]
  | (_, v) :: ms => by rw [members, Members.Nums, NumbersMembers, cst_nums P (n + 1) v, members_nums P n false ms]
end

theorem cst_within {maxDepth : Option Nat} {restrict : Bool} {v : JVal} (h : Within maxDepth restrict v) (n : Nat) : (cst st n v).Within maxDepth restrict :=
  ⟨fun k hk => by rw [cst_depth]; exact h.1 k hk, (cst_nums _ n v).2 h.2⟩

/-- without pretty printing -/
def plain (st : WSettings) : WSettings := { st with prettyPrint := false }

theorem strip_sep (n m : Nat) (first : Bool) : stripSep (sep st n first) = sep (plain st) m first := by
  cases first <;> rfl

theorem strip_close (n m : Nat) (first : Bool) : stripSep (close st n first) = close (plain st) m first := by
  cases first <;> rfl

mutual
theorem strip_cst (n m : Nat) : (v : JVal) → stripWs (cst st n v) = cst (plain st) m v
  | .null => by rw [cst, cst, stripWs] <;> nofun
  | .bool _ => by rw [cst, cst, stripWs] <;> nofun
  | .num _ => by rw [cst, cst, stripWs] <;> nofun
  | .str _ => by rw [cst, cst, stripWs] <;> first | rfl | nofun
  | .arr vs => by rw [cst, cst, stripWs, strip_items n m true vs]
  | .obj ms => by rw [cst, cst, stripWs, strip_members n m true ms]
theorem strip_items (n m : Nat) (first : Bool) : (vs : List JVal) → stripItems (items st n first vs) = items (plain st) m first vs
  | [] => by rw [items, items, stripItems, strip_close n m]
  | v :: vs => by rw [items, items, stripItems, strip_cst (n + 1) (m + 1) v, strip_items n m false vs, strip_sep n m]
theorem strip_members (n m : Nat) (first : Bool) : (ms : List (Text × JVal)) → stripMembers (members st n first ms) = members (plain st) m first ms
  | [] => by rw [members, members, stripMembers, strip_close n m]
  | (_, v) :: ms => by rw [members, members, stripMembers, strip_cst (n + 1) (m + 1) v, strip_members n m false ms, strip_sep n m]; rfl
end

theorem colonWs_plain : colonWs (plain st) = [] := rfl

/-! ## The calls which write a value -/

theorem steps_app {w w1 w2 : Written} {a b : List Writer.WOp} (h1 : Steps st w a w1) (h2 : Steps st w1 b w2) : Steps st w (a ++ b) w2 := by
  induction h1 with
  | nil => exact h2
  | cons h _ ih => exact .cons h (ih h2)

theorem steps_one {w w' : Written} {op : Writer.WOp} (h : Step st w op w') : Steps st w [op] w' := .cons h .nil

mutual
theorem calls_steps (v : JVal) (hv : JOk v) (w : Written) (hc : w.CanAdd st) : Steps st w (calls v) (w.add v) := by
  match v, hv with
  | .null, _ => rw [calls]; exact steps_one (.value hc .null)
  | .bool b, _ => rw [calls]; exact steps_one (.value hc (.bool b))
  | .num t, hv => rw [calls]; exact steps_one (.value hc (.number t hv))
  | .str t, _ => rw [calls]; exact steps_one (.value hc (.string t))
  | .arr vs, hv =>
    rw [calls]
    obtain ⟨tops, frames, str⟩ := w
    obtain ⟨rfl, hc'⟩ := hc
    refine .cons (.beginArray ⟨rfl, hc'⟩) (steps_app (callsItems_steps vs hv tops frames []) ?_)
    rw [List.nil_append]
    exact steps_one .endArray
  | .obj ms, hv =>
    rw [calls]
    obtain ⟨tops, frames, str⟩ := w
    obtain ⟨rfl, hc'⟩ := hc
    refine .cons (.beginObject ⟨rfl, hc'⟩) (steps_app (callsMembers_steps ms hv tops frames []) ?_)
    rw [List.nil_append]
    exact steps_one .endObject
theorem callsItems_steps (vs : List JVal) (hv : JOks vs) (tops : List JVal) (fs : List Frame) (us : List JVal) :
    Steps st ⟨tops, .arr us :: fs, none⟩ (callsItems vs) ⟨tops, .arr (us ++ vs) :: fs, none⟩ := by
  match vs, hv with
  | [], _ => rw [callsItems, List.append_nil]; exact .nil
  | v :: vs, hv =>
    rw [callsItems]
    refine steps_app (calls_steps v hv.1 ⟨tops, .arr us :: fs, none⟩ ⟨rfl, trivial⟩) ?_
    have := callsItems_steps vs hv.2 tops fs (us ++ [v])
    rw [List.append_assoc] at this
    exact this
theorem callsMembers_steps (ms : List (Text × JVal)) (hv : JOkm ms) (tops : List JVal) (fs : List Frame) (us : List (Text × JVal)) :
    Steps st ⟨tops, .obj us none :: fs, none⟩ (callsMembers ms) ⟨tops, .obj (us ++ ms) none :: fs, none⟩ := by
  match ms, hv with
  | [], _ => rw [callsMembers, List.append_nil]; exact .nil
  | (n, v) :: ms, hv =>
    rw [callsMembers]
    refine .cons .name (steps_app (calls_steps v hv.1 ⟨tops, .obj us (some n) :: fs, none⟩ ⟨rfl, trivial⟩) ?_)
    have := callsMembers_steps ms hv.2 tops fs (us ++ [(n, v)])
    rw [List.append_assoc] at this
    exact this
end

mutual
theorem calls_no_finish (v : JVal) : Writer.WOp.finishDocument ∉ calls v := by
  match v with
  | .null => rw [calls]; simp
  | .bool b => rw [calls]; simp
  | .num t => rw [calls]; simp
  | .str t => rw [calls]; simp
  | .arr vs => rw [calls]; simp [callsItems_no_finish vs]
  | .obj ms => rw [calls]; simp [callsMembers_no_finish ms]
theorem callsItems_no_finish (vs : List JVal) : Writer.WOp.finishDocument ∉ callsItems vs := by
  match vs with
  | [] => rw [callsItems]; simp
  | v :: vs => rw [callsItems]; simp [calls_no_finish v, callsItems_no_finish vs]
theorem callsMembers_no_finish (ms : List (Text × JVal)) : Writer.WOp.finishDocument ∉ callsMembers ms := by
  match ms with
  | [] => rw [callsMembers]; simp
  | (n, v) :: ms => rw [callsMembers]; simp [calls_no_finish v, callsMembers_no_finish ms]
end

mutual
theorem jok_iff : (v : JVal) → (JOk v ↔ Numbers IsNumber v)
  | .null => by rw [JOk, Numbers] <;> nofun
  | .bool _ => by rw [JOk, Numbers] <;> nofun
  | .num _ => by rw [JOk, Numbers]
  | .str _ => by rw [JOk, Numbers] <;> nofun
  | .arr vs => by rw [JOk, Numbers, joks_iff vs]
  | .obj ms => by rw [JOk, Numbers, jokm_iff ms]
theorem joks_iff : (vs : List JVal) → (JOks vs ↔ NumbersItems IsNumber vs)
  | [] => by rw [JOks, NumbersItems]
  | v :: vs => by rw [JOks, NumbersItems, jok_iff v, joks_iff vs]
theorem jokm_iff : (ms : List (Text × JVal)) → (JOkm ms ↔ NumbersMembers IsNumber ms)
  | [] => by rw [JOkm, NumbersMembers]
  | (_, v) :: ms => by rw [JOkm, NumbersMembers, jok_iff v, jokm_iff ms]
end

theorem joks_mem {vs : List JVal} (h : JOks vs) {v : JVal} (hv : v ∈ vs) : JOk v := by
  induction vs with
  | nil => cases hv
  | cons u vs ih =>
    rcases List.mem_cons.1 hv with rfl | hv
    · exact h.1
    · exact ih h.2 hv

/-- the values as a sequence of top-level values, if the separator is whitespace -/
theorem tops_of {cfg : Cfg} {ws : Ws} (hws : ws.Ok cfg.comments) (hne : ws ≠ []) (hs : topSep st = ws.bytes) {md : Option Nat} {r : Bool} :
    ∀ (vs : List JVal) (first : Bool), JOks vs → (∀ v ∈ vs, Within md r v) →
      ∃ t : Tops, (∀ b, (first = false ∨ b = false) → t.Ok cfg b) ∧ t.values = vs ∧ t.Within md r ∧
        t.bytes = (if first then topsBytes st vs else vs.flatMap fun v => topSep st ++ (cst st 0 v).bytes) := by
  intro vs
  induction vs with
  | nil => exact fun first _ _ => ⟨.nil ⟨[], none⟩, fun _ _ => ⟨nofun, nofun⟩, rfl, trivial, by cases first <;> rfl⟩
  | cons v vs ih =>
    intro first h hw
    obtain ⟨t, h1, h2, h3, h4⟩ := ih false h.2 fun u hu => hw u (List.mem_cons_of_mem _ hu)
    rw [if_neg (by decide)] at h4
    have hv := cst_within (st := st) (hw v (List.mem_cons_self ..)) 0
    refine ⟨.cons (if first then [] else ws) (cst st 0 v) t, fun b hb => ?_, by rw [Tops.values, h2, cst_value 0 v h.1], ⟨hv, h3⟩, ?_⟩
    · cases first with
      | true =>
        have : b = false := by simpa using hb
        subst this
        exact ⟨nofun, nofun, cst_ok 0 v h.1, h1 _ (.inl rfl)⟩
      | false => exact ⟨hws, fun _ => hne, cst_ok 0 v h.1, h1 _ (.inl rfl)⟩
    · cases first with
      | true => rw [Tops.bytes, h4]; rfl
      | false => rw [Tops.bytes, h4, if_neg (by decide), List.flatMap_cons, hs, if_neg (by decide), List.append_assoc]

end Verif.WSpec
