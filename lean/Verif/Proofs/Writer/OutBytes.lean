import Verif.Proofs.Writer.Utf8Out
/-!
# Which characters occur in what the writer emits
-/

namespace Verif.Writer

open WSpec Json Utf8

/-- `Q` holds for the printable ASCII characters, for the line break if pretty printing is enabled, and for the characters of strings
which are not escaped -/
structure Allowed (st : WSettings) (Q : Char → Prop) : Prop where
  printable : ∀ c : Char, 0x20 ≤ c.toNat → c.toNat < 0x7F → Q c
  line : st.prettyPrint = true → Q '\n'
  char : ∀ c, ¬ mustEscape st c → Q c

section
variable {st : WSettings} {Q : Char → Prop}

/-- the encoding of a text whose characters satisfy `Q` -/
def All (Q : Char → Prop) (bs : Bytes) : Prop := ∃ t, bs = enc t ∧ ∀ c ∈ t, Q c

theorem all_nil : All Q [] := ⟨[], rfl, fun _ h => nomatch h⟩
theorem all_append {a b : Bytes} (ha : All Q a) (hb : All Q b) : All Q (a ++ b) := by
  obtain ⟨s, rfl, hs⟩ := ha
  obtain ⟨t, rfl, ht⟩ := hb
  exact ⟨s ++ t, (enc_append s t).symm, fun x hx => (List.mem_append.1 hx).elim (hs x) (ht x)⟩
theorem all_byte {b : UInt8} (hb : b.toNat < 0x80) (h : Q (Char.ofNat b.toNat)) : All Q [b] :=
  ⟨[Char.ofNat b.toNat], by rw [enc_cons, enc_of_shape1 hb]; rfl, fun c hc => by cases List.mem_singleton.1 hc; exact h⟩
theorem all_cons {b : UInt8} {bs : Bytes} (h : All Q [b]) (hb : All Q bs) : All Q (b :: bs) := all_append h hb
theorem all_flatMap {α : Type} {f : α → Bytes} {l : List α} (h : ∀ a ∈ l, All Q (f a)) : All Q (l.flatMap f) := by
  induction l with
  | nil => exact all_nil
  | cons a l ih =>
    rw [List.flatMap_cons]
    exact all_append (h a List.mem_cons_self) (ih fun b hb => h b (List.mem_cons_of_mem _ hb))

theorem hexDigit_printable (n : Nat) (h : n < 16) : 0x20 ≤ (hexDigit n).toNat ∧ (hexDigit n).toNat < 0x7F := by
  have : ∀ n : Fin 16, 0x20 ≤ (hexDigit n.1).toNat ∧ (hexDigit n.1).toNat < 0x7F := by decide +kernel
  exact this ⟨n, h⟩

theorem number_printable {bs : Bytes} (h : IsNumber bs) : ∀ b ∈ bs, 0x20 ≤ b.toNat ∧ b.toNat < 0x7F := by
  obtain ⟨p, hp, rfl⟩ := h
  have dig : ∀ b : UInt8, isDigit b = true → 0x20 ≤ b.toNat ∧ b.toNat < 0x7F := by
    intro b hb
    simp only [isDigit, Bool.and_eq_true, decide_eq_true_eq, UInt8.le_iff_toNat_le] at hb
    have h1 : (0x30 : UInt8).toNat = 48 := rfl
    have h2 : (0x39 : UInt8).toNat = 57 := rfl
    omega
  intro b hb
  simp only [NumParts.text, List.mem_append] at hb
  rcases hb with hb | hb | hb | hb
  · unfold NumParts.signText at hb
    split at hb
    · cases List.mem_singleton.1 hb; decide
    · cases hb
  · rcases hp.int with h0 | ⟨d, ds, h0, h1, -, h3⟩
    · rw [h0] at hb; cases List.mem_singleton.1 hb; decide
    · rw [h0] at hb
      rcases List.mem_cons.1 hb with rfl | hb
      · exact dig _ h1
      · exact dig _ (h3 _ hb)
  · cases hf : p.frac with
    | none => rw [hf] at hb; cases hb
    | some ds =>
      rw [hf] at hb
      rcases List.mem_cons.1 hb with rfl | hb
      · decide
      · exact dig _ ((hp.frac ds hf).2 _ hb)
  · cases he : p.exp with
    | none => rw [he] at hb; cases hb
    | some x =>
      obtain ⟨e, sg, ds⟩ := x
      rw [he] at hb
      obtain ⟨h1, h2, h3⟩ := hp.exp e sg ds he
      rcases List.mem_cons.1 hb with rfl | hb
      · rcases h1 with rfl | rfl <;> decide
      · rcases List.mem_append.1 hb with hb | hb
        · have := h2 b (by simpa using hb)
          rcases this with rfl | rfl <;> decide
        · exact dig _ (h3.2 _ hb)

theorem ascii_toNat {n : Nat} (h : n < 0x80) : (Char.ofNat n).toNat = n := by
  have : ∀ n : Fin 0x80, (Char.ofNat n.1).toNat = n.1 := by decide +kernel
  exact this ⟨n, h⟩

theorem ascii_bytes {t : Text} (h : ∀ c ∈ t, c.toNat < 0x80) : ∀ b ∈ enc t, b.toNat < 0x80 := by
  induction t with
  | nil => intro b hb; cases hb
  | cons c t ih =>
    intro b hb
    have hc := h c List.mem_cons_self
    have h1 : enc [c] = [UInt8.ofNat c.toNat] := by
      have h2 := enc_of_shape1 (b0 := UInt8.ofNat c.toNat) (by simp; omega)
      have h3 : (UInt8.ofNat c.toNat).toNat = c.toNat := by simp; omega
      rw [h3, Char.ofNat_toNat] at h2
      rw [enc_cons, h2]; rfl
    rw [show c :: t = [c] ++ t from rfl, enc_append, h1] at hb
    rcases List.mem_append.1 hb with hb | hb
    · cases List.mem_singleton.1 hb; simp; omega
    · exact ih (fun c hc => h c (List.mem_cons_of_mem _ hc)) b hb

theorem no_control_bytes {t : Text} (h : ∀ c ∈ t, 0x20 ≤ c.toNat) : ∀ b ∈ enc t, 0x20 ≤ b.toNat := by
  induction t with
  | nil => intro b hb; cases hb
  | cons c t ih =>
    intro b hb
    rw [enc_cons] at hb
    rcases List.mem_append.1 hb with hb | hb
    · have hc := h c List.mem_cons_self
      have hs := encShape c
      revert hb hs
      generalize String.utf8EncodeChar c = bs
      intro hb hs
      cases hs with
      | one b0 h1 h2 =>
        cases List.mem_singleton.1 hb
        omega
      | two b0 b1 h1 h2 h3 h4 h5 h6 =>
        simp only [List.mem_cons, List.not_mem_nil, or_false] at hb
        rcases hb with rfl | rfl <;> omega
      | three b0 b1 b2 h1 h2 h3 h4 h5 h6 h7 h8 =>
        simp only [List.mem_cons, List.not_mem_nil, or_false] at hb
        rcases hb with rfl | rfl | rfl <;> omega
      | four b0 b1 b2 b3 h1 h2 h3 h4 h5 h6 h7 h8 h9 h10 =>
        simp only [List.mem_cons, List.not_mem_nil, or_false] at hb
        rcases hb with rfl | rfl | rfl | rfl <;> omega
    · exact ih (fun c hc => h c (List.mem_cons_of_mem _ hc)) b hb

variable (A : Allowed st Q)
include A

theorem Allowed.p (b : UInt8) (h : 0x20 ≤ b.toNat ∧ b.toNat < 0x7F) : All Q [b] := by
  refine all_byte (by omega) (A.printable _ ?_ ?_)
  · rw [ascii_toNat (by omega)]; exact h.1
  · rw [ascii_toNat (by omega)]; exact h.2

theorem all_hex4 (n : Nat) : All Q (hex4 n).bytes :=
  all_cons (A.p _ (hexDigit_printable _ (Nat.mod_lt _ (by decide)))) (all_cons (A.p _ (hexDigit_printable _ (Nat.mod_lt _ (by decide))))
    (all_cons (A.p _ (hexDigit_printable _ (Nat.mod_lt _ (by decide)))) ((A.p _ (hexDigit_printable _ (Nat.mod_lt _ (by decide)))))))

theorem all_short {b : UInt8} (h : 0x20 ≤ b.toNat ∧ b.toNat < 0x7F) : All Q (StrItem.short b).bytes := all_cons (A.p _ (by decide)) ((A.p _ h))

theorem all_escape (c : Char) : All Q (escape c).bytes := by
  unfold escape
  iterate 7 (split; · exact all_short A (by decide))
  split
  · exact all_cons (A.p _ (by decide)) (all_cons (A.p _ (by decide)) (all_hex4 A _))
  · exact all_append (all_append (all_append (all_cons (A.p _ (by decide)) ((A.p _ (by decide)))) (all_hex4 A _)) (all_cons (A.p _ (by decide)) ((A.p _ (by decide))))) (all_hex4 A _)

theorem all_body (t : Text) : All Q (strLit st t).body := by
  unfold Str.body strLit
  dsimp only
  rw [List.flatMap_map]
  refine all_flatMap fun c _ => ?_
  unfold item
  split
  · exact all_escape A c
  · rename_i h
    have h1 : (StrItem.char c).bytes = enc [c] := by rw [enc_cons]; simp [StrItem.bytes]
    rw [h1]
    exact ⟨[c], rfl, fun x hx => by cases List.mem_singleton.1 hx; exact A.char c h⟩

theorem all_str (t : Text) : All Q (strLit st t).bytes :=
  all_cons (A.p _ (by decide)) (all_append (all_body A t) ((A.p _ (by decide))))

theorem all_gap (n : Nat) : All Q (gap st n).bytes := by
  unfold gap
  split
  · rename_i h
    refine all_flatMap fun a ha => ?_
    rcases List.mem_cons.1 ha with rfl | ha
    · exact all_byte (by decide) (A.line h)
    · rw [List.eq_of_mem_replicate ha]; exact (A.p _ (by decide))
  · exact all_nil

theorem all_sep (n : Nat) (first : Bool) : All Q (sep st n first).bytes := by
  unfold sep
  split
  · exact all_gap A _
  · exact all_cons (A.p _ (by decide)) (all_gap A _)

theorem all_close (n : Nat) (first : Bool) : All Q (close st n first).bytes := by
  unfold close
  cases first
  · exact all_gap A _
  · exact all_nil

theorem all_colonWs : All Q (colonWs st).bytes := by
  unfold colonWs
  split
  · exact (A.p _ (by decide))
  · exact all_nil

theorem all_num {t : Text} (h : IsNumber (enc t)) : All Q (enc t) := by
  have hp := number_printable h
  generalize enc t = bs at hp
  induction bs with
  | nil => exact all_nil
  | cons b bs ih => exact all_cons (A.p b (hp b List.mem_cons_self)) (ih fun x hx => hp x (List.mem_cons_of_mem _ hx))

theorem all_null : All Q (Cst.null).bytes := all_cons (A.p _ (by decide)) (all_cons (A.p _ (by decide)) (all_cons (A.p _ (by decide)) ((A.p _ (by decide)))))
theorem all_bool (b : Bool) : All Q (Cst.bool b).bytes := by
  cases b
  · exact all_cons (A.p _ (by decide)) (all_cons (A.p _ (by decide)) (all_cons (A.p _ (by decide)) (all_cons (A.p _ (by decide)) ((A.p _ (by decide))))))
  · exact all_cons (A.p _ (by decide)) (all_cons (A.p _ (by decide)) (all_cons (A.p _ (by decide)) ((A.p _ (by decide)))))

omit A in
mutual
theorem all_cst (A : Allowed st Q) (n : Nat) : ∀ v : JVal, JOk v → All Q (cst st n v).bytes
  | .null, _ => by rw [cst]; exact all_null A
  | .bool b, _ => by rw [cst]; exact all_bool A b
  | .num t, h => by rw [cst, Cst.bytes]; exact all_num A h
  | .str t, _ => by rw [cst, Cst.bytes]; exact all_str A t
  | .arr vs, h => by rw [cst, Cst.bytes]; exact all_cons (A.p _ (by decide)) (all_items A n true vs h)
  | .obj ms, h => by rw [cst, Cst.bytes]; exact all_cons (A.p _ (by decide)) (all_members A n true ms h)
theorem all_items (A : Allowed st Q) (n : Nat) (first : Bool) : ∀ vs : List JVal, JOks vs → All Q (items st n first vs).bytes
  | [], _ => by rw [items, Items.bytes]; exact all_append (all_close A _ _) ((A.p _ (by decide)))
  | v :: vs, h => by rw [items, Items.bytes]; exact all_append (all_sep A _ _) (all_append (all_cst A (n + 1) v h.1) (all_items A n false vs h.2))
theorem all_members (A : Allowed st Q) (n : Nat) (first : Bool) : ∀ ms : List (Text × JVal), JOkm ms → All Q (members st n first ms).bytes
  | [], _ => by rw [members, Members.bytes]; exact all_append (all_close A _ _) ((A.p _ (by decide)))
  | (name, v) :: ms, h => by
    rw [members, Members.bytes]
    exact all_append (all_sep A _ _) (all_append (all_str A _) (all_append all_nil (all_cons (A.p _ (by decide)) (all_append (all_colonWs A)
      (all_append (all_cst A (n + 1) v h.1) (all_members A n false ms h.2))))))
end

theorem all_openItems (n : Nat) (first : Bool) {vs : List JVal} (h : JOks vs) : All Q (openItems st n first vs) := by
  induction vs generalizing first with
  | nil => exact all_nil
  | cons v vs ih => exact all_append (all_sep A _ _) (all_append (all_cst A _ _ h.1) (ih _ h.2))

theorem all_openMembers (n : Nat) (first : Bool) {ms : List (Text × JVal)} (h : JOkm ms) : All Q (openMembers st n first ms) := by
  induction ms generalizing first with
  | nil => exact all_nil
  | cons m ms ih =>
    exact all_append (all_sep A _ _) (all_append (all_str A _) (all_cons (A.p _ (by decide)) (all_append (all_colonWs A) (all_append (all_cst A _ _ h.1) (ih _ h.2)))))

theorem all_frame (n : Nat) {f : Frame} (h : FrameOk f) : All Q (f.bytes st n) := by
  match f, h with
  | .arr vs, h => exact all_cons (A.p _ (by decide)) (all_openItems A _ _ h)
  | .obj ms none, h => exact all_cons (A.p _ (by decide)) (all_openMembers A _ _ h)
  | .obj ms (some name), h =>
    exact all_cons (A.p _ (by decide)) (all_append (all_openMembers A _ _ h) (all_append (all_sep A _ _) (all_append (all_str A _) (all_cons (A.p _ (by decide)) (all_colonWs A)))))

theorem all_lead (hs : ∀ c ∈ st.separator.getD [], Q c) (tops : List JVal) (fs : List Frame) : All Q (lead st tops fs) := by
  match fs with
  | [] =>
    rw [lead]
    split
    · exact all_nil
    · exact ⟨_, rfl, hs⟩
  | .arr vs :: fs => exact all_sep A _ _
  | .obj _ _ :: _ => exact all_nil

theorem all_tops (hs : ∀ c ∈ st.separator.getD [], Q c) {tops : List JVal} (h : JOks tops) : All Q (topsBytes st tops) := by
  cases tops with
  | nil => exact all_nil
  | cons v vs =>
    refine all_append (all_cst A _ _ h.1) ?_
    replace h := h.2
    induction vs with
    | nil => exact all_nil
    | cons v vs ih => exact all_append (all_append ⟨_, rfl, hs⟩ (all_cst A _ _ h.1)) (ih h.2)

theorem all_frames (hs : ∀ c ∈ st.separator.getD [], Q c) {tops : List JVal} (ht : JOks tops) {fs : List Frame} (h : FramesOk st tops fs) : All Q (framesBytes st tops fs) := by
  induction fs with
  | nil => exact all_tops A hs ht
  | cons f fs ih => exact all_append (ih h.2.2) (all_append (all_lead A hs _ _) (all_frame A _ h.2.1))

/-- all emitted bytes are allowed -/
theorem all_written (hs : ∀ c ∈ st.separator.getD [], Q c) {w : Written} (h : WOk st w) : All Q (w.bytes st) := by
  unfold Written.bytes
  refine all_append (all_frames A hs h.tops h.frames) ?_
  split
  · exact all_nil
  · exact all_append (all_lead A hs _ _) (all_cons (A.p _ (by decide)) (all_body A _))

end

end Verif.Writer
