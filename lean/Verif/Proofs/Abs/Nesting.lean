import Verif.Spec.Nesting
import Verif.Proofs.Abs.Sound
/-! # Nesting depth of documents and of their beginnings -/

namespace Verif.Nesting
open Json Abs Utf8

/-- the bytes lead from one state of the scanner to another one without any brackets -/
def Goes (q : Lex) (bs : Bytes) (q' : Lex) : Prop := ∀ d m, bs.foldl Scan.next ⟨q, d, m⟩ = ⟨q', d, m⟩

theorem Goes.nil {q : Lex} : Goes q [] q := fun _ _ => rfl

theorem Goes.append {q q' q'' : Lex} {a b : Bytes} (h : Goes q a q') (h' : Goes q' b q'') : Goes q (a ++ b) q'' := by
  intro d m
  rw [List.foldl_append, h, h']

theorem Goes.one {q q' : Lex} {b : UInt8} (h : ∀ d m, Scan.next ⟨q, d, m⟩ b = ⟨q', d, m⟩) : Goes q [b] q' := h

theorem Goes.cons {q q' q'' : Lex} {b : UInt8} {bs : Bytes} (h : ∀ d m, Scan.next ⟨q, d, m⟩ b = ⟨q', d, m⟩) (h' : Goes q' bs q'') : Goes q (b :: bs) q'' := by
  intro d m
  rw [List.foldl_cons, h, h']

theorem Goes.stay {q : Lex} {bs : Bytes} (h : ∀ b ∈ bs, ∀ d m, Scan.next ⟨q, d, m⟩ b = ⟨q, d, m⟩) : Goes q bs q := by
  induction bs with
  | nil => exact .nil
  | cons b bs ih => exact .cons (h b (List.mem_cons_self ..)) (ih fun x hx => h x (List.mem_cons_of_mem _ hx))

theorem byte_ne {b : UInt8} {n : Nat} (h : 0x80 ≤ b.toNat) (hn : n < 0x80) : b ≠ UInt8.ofNat n := by
  rintro rfl
  rw [UInt8.toNat_ofNat'] at h
  omega

/-! ## Characters -/

/-- the bytes of a character are one ASCII byte, or they are all not ASCII -/
theorem char_bytes (c : Char) : (∃ b : UInt8, b.toNat = c.toNat ∧ b.toNat < 0x80 ∧ String.utf8EncodeChar c = [b]) ∨ (0x80 ≤ c.toNat ∧ String.utf8EncodeChar c ≠ [] ∧ ∀ b ∈ String.utf8EncodeChar c, 0x80 ≤ b.toNat) := by
  have hs := encShape c
  generalize String.utf8EncodeChar c = bs at hs
  cases hs with
  | one b0 h1 h2 => exact .inl ⟨b0, h2.symm, h1, rfl⟩
  | two b0 b1 h1 h2 h3 h4 h5 h6 =>
    refine .inr ⟨h6, nofun, ?_⟩
    intro b hb
    simp only [List.mem_cons, List.not_mem_nil, or_false] at hb
    rcases hb with rfl | rfl <;> omega
  | three b0 b1 b2 h1 h2 h3 h4 h5 h6 h7 h8 =>
    refine .inr ⟨by omega, nofun, ?_⟩
    intro b hb
    simp only [List.mem_cons, List.not_mem_nil, or_false] at hb
    rcases hb with rfl | rfl | rfl <;> omega
  | four b0 b1 b2 b3 h1 h2 h3 h4 h5 h6 h7 h8 h9 h10 =>
    refine .inr ⟨by omega, nofun, ?_⟩
    intro b hb
    simp only [List.mem_cons, List.not_mem_nil, or_false] at hb
    rcases hb with rfl | rfl | rfl | rfl <;> omega

theorem next_high {q : Lex} {b : UInt8} (h : 0x80 ≤ b.toNat) (hq : q = .string ∨ q = .line ∨ q = .block) (d m : Nat) : Scan.next ⟨q, d, m⟩ b = ⟨q, d, m⟩ := by
  have h1 : b ≠ 0x22 := byte_ne (n := 0x22) h (by decide)
  have h2 : b ≠ 0x5C := byte_ne (n := 0x5C) h (by decide)
  have h3 : b ≠ 0x0A := byte_ne (n := 0x0A) h (by decide)
  have h4 : b ≠ 0x0D := byte_ne (n := 0x0D) h (by decide)
  have h5 : b ≠ 0x2A := byte_ne (n := 0x2A) h (by decide)
  rcases hq with rfl | rfl | rfl <;> simp [Scan.next, h1, h2, h3, h4, h5]

theorem goes_string_char {c : Char} (h1 : c ≠ '"') (h2 : c ≠ '\\') : Goes .string (String.utf8EncodeChar c) .string := by
  rcases char_bytes c with ⟨b, hb, _, he⟩ | ⟨_, _, h⟩
  · rw [he]
    refine .one fun d m => ?_
    have h3 : b ≠ 0x22 := by
      rintro rfl
      exact h1 (char_ext hb.symm)
    have h4 : b ≠ 0x5C := by
      rintro rfl
      exact h2 (char_ext hb.symm)
    simp [Scan.next, h3, h4]
  · exact .stay fun b hb => next_high (h b hb) (.inl rfl)

theorem goes_line_char {c : Char} (h : LineCommentChar c) : Goes .line (String.utf8EncodeChar c) .line := by
  rcases char_bytes c with ⟨b, hb, _, he⟩ | ⟨_, _, h'⟩
  · rw [he]
    refine .one fun d m => ?_
    have key : ∀ x : Char, x.toNat < 0x20 → x ≠ '\t' → b.toNat ≠ x.toNat := by
      intro x hx ht hbx
      have : c = x := char_ext (hb.symm.trans hbx)
      subst this
      rcases h with h | h
      · omega
      · exact ht h
    have h3 : b ≠ 0x0A := by
      rintro rfl
      exact key '\n' (by decide) (by decide) rfl
    have h4 : b ≠ 0x0D := by
      rintro rfl
      exact key '\r' (by decide) (by decide) rfl
    simp [Scan.next, h3, h4]
  · exact .stay fun b hb => next_high (h' b hb) (.inr (.inl rfl))

theorem goes_line {cs : Text} (h : ∀ c ∈ cs, LineCommentChar c) : Goes .line (enc cs) .line := by
  induction cs with
  | nil => exact .nil
  | cons c cs ih =>
    rw [Verif.enc_cons]
    exact (goes_line_char (h c (List.mem_cons_self ..))).append (ih fun x hx => h x (List.mem_cons_of_mem _ hx))

/-- in a block comment; `st`: behind an asterisk -/
theorem goes_block_char {c : Char} (q : Lex) (hq : q = .block ∨ q = .star) (h : q = .star → c ≠ '/') : Goes q (String.utf8EncodeChar c) (if c = '*' then .star else .block) := by
  rcases char_bytes c with ⟨b, hb, _, he⟩ | ⟨h1, h2, h'⟩
  · rw [he]
    refine .one fun d m => ?_
    by_cases hs : c = '*'
    · subst hs
      have : b = 0x2A := UInt8.toNat_inj.1 hb
      subst this
      rcases hq with rfl | rfl <;> rfl
    · rw [if_neg hs]
      have h3 : b ≠ 0x2A := by
        rintro rfl
        exact hs (char_ext hb.symm)
      rcases hq with rfl | rfl
      · simp [Scan.next, h3]
      · have h4 : b ≠ 0x2F := by
          rintro rfl
          exact h rfl (char_ext hb.symm)
        simp [Scan.next, h3, h4]
  · have hc : c ≠ '*' := by rintro rfl; exact absurd h1 (by decide)
    rw [if_neg hc]
    have hb : Goes .block (String.utf8EncodeChar c) .block := .stay fun b hb => next_high (h' b hb) (.inr (.inr rfl))
    rcases hq with rfl | rfl
    · exact hb
    · obtain ⟨b, bs, he⟩ := List.exists_cons_of_ne_nil h2
      rw [he] at h' hb ⊢
      refine .cons (q' := .block) (fun d m => ?_) (.stay fun x hx => next_high (h' x (List.mem_cons_of_mem _ hx)) (.inr (.inr rfl)))
      have hb := h' b (List.mem_cons_self ..)
      have h3 : b ≠ 0x2A := byte_ne (n := 0x2A) hb (by decide)
      have h4 : b ≠ 0x2F := byte_ne (n := 0x2F) hb (by decide)
      simp [Scan.next, h3, h4]

theorem goes_block {cs : Text} : ∀ (q : Lex), (q = .block ∨ q = .star) → (q = .star → ∀ ds, cs ≠ '/' :: ds) → ¬ ['*', '/'] <:+: cs →
    ∃ q', (q' = .block ∨ q' = .star) ∧ Goes q (enc cs) q' := by
  induction cs with
  | nil => intro q hq _ _; exact ⟨q, hq, .nil⟩
  | cons c cs ih =>
    intro q hq h1 h2
    have hc := goes_block_char (c := c) q hq fun hq he => h1 hq cs (by rw [he])
    obtain ⟨q', h3, h4⟩ := ih (if c = '*' then .star else .block) (by split <;> simp) (by
      intro hs ds he
      split at hs
      · rename_i hcs
        subst hcs he
        exact h2 ⟨[], ds, rfl⟩
      · cases hs) fun h => h2 (h.trans (List.suffix_cons ..).isInfix)
    exact ⟨q', h3, by rw [Verif.enc_cons]; exact hc.append h4⟩

/-! ## Whitespace, separators, strings -/

variable {comments : Bool} {cfg : Cfg}

theorem goes_item {i : WsItem} (h : i.Ok comments) : Goes .plain i.bytes .plain := by
  cases i with
  | space b =>
    refine .one fun d m => ?_
    rcases h with rfl | rfl | rfl | rfl <;> rfl
  | line cs nl =>
    obtain ⟨_, h1, h2⟩ := h
    unfold WsItem.bytes
    refine .append (.append (.cons (q' := .slash) (fun _ _ => rfl) (.one (q' := .line) fun _ _ => rfl)) (goes_line h1)) (.one fun d m => ?_)
    rcases h2 with rfl | rfl <;> rfl
  | block cs =>
    obtain ⟨_, _, h2⟩ := h
    obtain ⟨q', h3, h4⟩ := goes_block .block (.inl rfl) nofun h2
    unfold WsItem.bytes
    refine .append (.append (.cons (q' := .slash) (fun _ _ => rfl) (.one (q' := .block) fun _ _ => rfl)) h4) (.cons (q' := .star) (fun d m => ?_) (.one fun _ _ => rfl))
    rcases h3 with rfl | rfl <;> rfl

theorem goes_ws {w : Ws} (h : w.Ok comments) : Goes .plain w.bytes .plain := by
  unfold Ws.bytes
  induction w with
  | nil => exact .nil
  | cons i w ih =>
    rw [List.flatMap_cons]
    exact (goes_item (h i (List.mem_cons_self ..))).append (ih fun x hx => h x (List.mem_cons_of_mem _ hx))

theorem goes_trail {t : TrailWs} (h : t.Ok comments) : ∃ q, Goes .plain t.bytes q := by
  obtain ⟨h1, h2⟩ := h
  unfold TrailWs.bytes
  cases ho : t.openComment with
  | none => exact ⟨.plain, (goes_ws h1).append .nil⟩
  | some cs => exact ⟨.line, (goes_ws h1).append (.append (.cons (q' := .slash) (fun _ _ => rfl) (.one (q' := .line) fun _ _ => rfl)) (goes_line (h2 cs ho).2))⟩

theorem goes_sep {s : Sep} {first : Bool} (h : s.Ok cfg first ∨ s.OkEnd cfg first) : Goes .plain s.bytes .plain := by
  cases s with
  | plain w =>
    rcases h with h | h
    · exact goes_ws h.2
    · exact goes_ws h
  | comma w1 w2 =>
    rcases h with h | h
    · exact (goes_ws h.2.1).append (.cons (fun _ _ => rfl) (goes_ws h.2.2))
    · exact (goes_ws h.2.2.1).append (.cons (fun _ _ => rfl) (goes_ws h.2.2.2))

theorem hex_goes {b : UInt8} {n : Nat} (h : hexVal b = some n) (d m : Nat) : Scan.next ⟨.string, d, m⟩ b = ⟨.string, d, m⟩ := by
  have h3 : b ≠ 0x22 := by
    rintro rfl
    cases h
  have h4 : b ≠ 0x5C := by
    rintro rfl
    cases h
  simp [Scan.next, h3, h4]

theorem goes_hex {h4 : Hex4} {n : Nat} (h : h4.Is n) : Goes .string h4.bytes .string := by
  obtain ⟨a, b, c, d, h1, h2, h3, h5, _⟩ := h
  exact .cons (hex_goes h1) (.cons (hex_goes h2) (.cons (hex_goes h3) (.one (hex_goes h5))))

theorem goes_u : Goes .string [0x5C, 0x75] .string := .cons (q' := .escape) (fun _ _ => rfl) (.one fun _ _ => rfl)

theorem goes_strItem {i : StrItem} {c : Char} (h : i.Is c) : Goes .string i.bytes .string := by
  cases h with
  | char c _ h1 h2 => exact goes_string_char h1 h2
  | short b c h => exact .cons (q' := .escape) (fun _ _ => rfl) (.one fun _ _ => rfl)
  | unicode h4 c h => exact goes_u.append (goes_hex h)
  | pair hi lo a b c h1 h2 => exact ((goes_u.append (goes_hex h1)).append goes_u).append (goes_hex h2)

theorem goes_items {is : List StrItem} {cs : Text} (h : ItemsAre is cs) : Goes .string (is.flatMap StrItem.bytes) .string := by
  induction h with
  | nil => exact .nil
  | cons h _ ih => rw [List.flatMap_cons]; exact (goes_strItem h).append ih

theorem goes_str {s : Str} (h : s.Ok) : Goes .plain s.bytes .plain :=
  .cons (q' := .string) (fun _ _ => rfl) ((goes_items h).append (.one fun _ _ => rfl))

theorem goes_num {bs : Bytes} (h : IsNumber bs) : Goes .plain bs .plain := by
  obtain ⟨p, hp, rfl⟩ := h
  refine .stay fun b hb d m => ?_
  have h1 := JsonNumber.text_chars hp b hb
  have h2 : b ≠ 0x22 ∧ b ≠ 0x2F ∧ b ≠ 0x5B ∧ b ≠ 0x7B ∧ b ≠ 0x5D ∧ b ≠ 0x7D := by
    revert h1
    refine forallByte (P := fun b => isNumberChar b = true → b ≠ 0x22 ∧ b ≠ 0x2F ∧ b ≠ 0x5B ∧ b ≠ 0x7B ∧ b ≠ 0x5D ∧ b ≠ 0x7D) ?_ b
    decide +kernel
  obtain ⟨h2, h3, h4, h5, h6, h7⟩ := h2
  simp [Scan.next, h2, h3, h4, h5, h6, h7]

/-! ## Values -/

theorem Goes.at {q q' : Lex} {bs : Bytes} (h : Goes q bs q') (d m : Nat) (rest : Bytes) : (bs ++ rest).foldl Scan.next ⟨q, d, m⟩ = rest.foldl Scan.next ⟨q', d, m⟩ := by
  rw [List.foldl_append, h]

mutual
theorem val_scan (v : Cst) (h : v.Ok cfg) : ∀ d m, d ≤ m → v.bytes.foldl Scan.next ⟨.plain, d, m⟩ = ⟨.plain, d, max m (d + v.depth)⟩ := by
  intro d m hdm
  have flat : Goes .plain v.bytes .plain → v.depth = 0 → v.bytes.foldl Scan.next ⟨.plain, d, m⟩ = ⟨.plain, d, max m (d + v.depth)⟩ := by
    intro h1 h2
    rw [h1, h2, Nat.add_zero, Nat.max_eq_left hdm]
  cases v with
  | null => exact flat (.stay (by intro b hb d m; simp only [Cst.bytes, List.mem_cons, List.not_mem_nil, or_false] at hb; rcases hb with rfl | rfl | rfl | rfl <;> rfl)) rfl
  | bool b =>
    cases b
    · exact flat (.stay (by intro b hb d m; simp only [Cst.bytes, List.mem_cons, List.not_mem_nil, or_false] at hb; rcases hb with rfl | rfl | rfl | rfl | rfl <;> rfl)) rfl
    · exact flat (.stay (by intro b hb d m; simp only [Cst.bytes, List.mem_cons, List.not_mem_nil, or_false] at hb; rcases hb with rfl | rfl | rfl | rfl <;> rfl)) rfl
  | num bs => exact flat (goes_num h) rfl
  | str s => exact flat (goes_str h) rfl
  | arr is =>
    show (0x5B :: is.bytes).foldl Scan.next ⟨.plain, d, m⟩ = _
    rw [List.foldl_cons]
    show is.bytes.foldl Scan.next ⟨.plain, d + 1, max m (d + 1)⟩ = _
    rw [items_scan is h d _ (Nat.le_max_right ..)]
    congr 1
    simp only [Cst.depth]
    omega
  | obj ms =>
    show (0x7B :: ms.bytes).foldl Scan.next ⟨.plain, d, m⟩ = _
    rw [List.foldl_cons]
    show ms.bytes.foldl Scan.next ⟨.plain, d + 1, max m (d + 1)⟩ = _
    rw [members_scan ms h d _ (Nat.le_max_right ..)]
    congr 1
    simp only [Cst.depth]
    omega
theorem items_scan (is : Items) {first : Bool} (h : is.Ok cfg first) : ∀ d m, d + 1 ≤ m → is.bytes.foldl Scan.next ⟨.plain, d + 1, m⟩ = ⟨.plain, d, max m (d + 1 + is.depth)⟩ := by
  intro d m hdm
  cases is with
  | nil close =>
    rw [Items.bytes, (goes_sep (.inr h)).at]
    show (⟨.plain, d, m⟩ : Scan) = _
    simp only [Items.depth]
    congr 1
    omega
  | cons sep v rest =>
    rw [Items.bytes, (goes_sep (.inl h.1)).at, List.foldl_append, val_scan v h.2.1 _ _ hdm, items_scan rest h.2.2 _ _ (by omega)]
    simp only [Items.depth]
    congr 1
    omega
theorem members_scan (ms : Members) {first : Bool} (h : ms.Ok cfg first) : ∀ d m, d + 1 ≤ m → ms.bytes.foldl Scan.next ⟨.plain, d + 1, m⟩ = ⟨.plain, d, max m (d + 1 + ms.depth)⟩ := by
  intro d m hdm
  cases ms with
  | nil close =>
    rw [Members.bytes, (goes_sep (.inr h)).at]
    show (⟨.plain, d, m⟩ : Scan) = _
    simp only [Members.depth]
    congr 1
    omega
  | cons sep name w1 w2 v rest =>
    obtain ⟨h1, h2, h3, h4, h5, h6⟩ := h
    have hc : Goes .plain [0x3A] .plain := .one fun _ _ => rfl
    rw [Members.bytes, (goes_sep (.inl h1)).at, (goes_str h2).at, (goes_ws h3).at, ← List.singleton_append (l := _ ++ _), hc.at, (goes_ws h4).at, List.foldl_append, val_scan v h5 _ _ hdm,
      members_scan rest h6 _ _ (by omega)]
    simp only [Members.depth]
    congr 1
    omega
end

/-! ## Documents and consumed parts -/

theorem tops_scan {done : List (Ws × Cst)} : ∀ {bare : Bool}, TopsOk cfg bare done → ∀ m, (done.flatMap topBytes).foldl Scan.next ⟨.plain, 0, m⟩ = ⟨.plain, 0, max m (maxDepth (done.map (·.2)))⟩ := by
  induction done with
  | nil => intro bare _ m; simp [maxDepth]
  | cons x xs ih =>
    intro bare h m
    rw [List.flatMap_cons, topBytes, List.append_assoc, (goes_ws h.1).at, List.foldl_append, val_scan x.2 h.2.2.1 _ _ (Nat.zero_le _), ih h.2.2.2]
    simp only [List.map_cons, maxDepth]
    congr 1
    omega

theorem itemsOk_scan {done : List (Sep × Cst)} : ∀ {first : Bool}, ItemsOk cfg first done → ∀ d m, d ≤ m →
    (done.flatMap itemBytes).foldl Scan.next ⟨.plain, d, m⟩ = ⟨.plain, d, max m (d + maxDepth (done.map (·.2)))⟩ := by
  induction done with
  | nil => intro first _ d m h; simp [maxDepth, Nat.max_eq_left h]
  | cons x xs ih =>
    intro first h d m hd
    rw [List.flatMap_cons, itemBytes, List.append_assoc, (goes_sep (.inl h.1)).at, List.foldl_append, val_scan x.2 h.2.1 _ _ hd, ih h.2.2 _ _ (by omega)]
    simp only [List.map_cons, maxDepth]
    congr 1
    omega

theorem goes_colon : Goes .plain [0x3A] .plain := .one fun _ _ => rfl

theorem memsOk_scan {done : List Mem} : ∀ {first : Bool}, MemsOk cfg first done → ∀ d m, d ≤ m →
    (done.flatMap Mem.bytes).foldl Scan.next ⟨.plain, d, m⟩ = ⟨.plain, d, max m (d + maxDepth (done.map (·.v)))⟩ := by
  induction done with
  | nil => intro first _ d m h; simp [maxDepth, Nat.max_eq_left h]
  | cons x xs ih =>
    intro first h d m hd
    obtain ⟨⟨h1, h2, h3, h4, h5⟩, h6⟩ := h
    have he : x.bytes = (x.sep.bytes ++ (x.name.bytes ++ (x.w1.bytes ++ ([0x3A] ++ x.w2.bytes)))) ++ x.v.bytes := by simp [Mem.bytes]
    have hg := (goes_sep (.inl h1)).append ((goes_str h2).append ((goes_ws h3).append (goes_colon.append (goes_ws h4))))
    rw [List.flatMap_cons, he, List.append_assoc, hg.at, List.foldl_append, val_scan x.v h5 _ _ hd, ih h6 _ _ (by omega)]
    simp only [List.map_cons, maxDepth]
    congr 1
    omega

theorem goes_lead {st : Settings} {c : Ctx} {p : Peeked} {l : Lead} (h : c.LeadFor st p l) : Goes .plain l.bytes .plain := by
  cases c <;> cases l <;> first | exact h.elim | skip
  · exact goes_ws h.2.1
  · rcases h with h | h
    · exact goes_sep (.inr h.2)
    · exact goes_sep (.inl h.2)
  · rcases h with h | h
    · exact goes_sep (.inr h.2)
    · exact goes_sep (.inl h.2)
  · exact (goes_ws h.2.1).append (goes_colon.append (goes_ws h.2.2))

theorem depth_frames (c : Ctx) : c.frames.length ≤ c.depth := by rw [frames_stack]; exact stack_le_depth c

/-- the scanner agrees with the consumed part of the document -/
theorem ctx_scan {st : Settings} : ∀ {c : Ctx}, c.Ok st → scan c.bytes = ⟨.plain, c.frames.length, c.depth⟩ := by
  intro c
  unfold scan
  induction c with
  | top done =>
    intro h
    rw [Ctx.bytes, tops_scan h.1]
    simp [Ctx.depth, Ctx.frames]
  | arr up l done ih =>
    intro h
    have := depth_frames up
    rw [Ctx.bytes, List.foldl_append, ih h.1, (goes_lead h.2.1).at, List.foldl_cons]
    show _ = (⟨.plain, up.frames.length + 1, _⟩ : Scan)
    change (done.flatMap itemBytes).foldl Scan.next ⟨.plain, up.frames.length + 1, max up.depth (up.frames.length + 1)⟩ = _
    rw [itemsOk_scan h.2.2 _ _ (Nat.le_max_right ..)]
    simp only [Ctx.depth]
    congr 1
    omega
  | obj up l done ih =>
    intro h
    have := depth_frames up
    rw [Ctx.bytes, List.foldl_append, ih h.1, (goes_lead h.2.1).at, List.foldl_cons]
    show _ = (⟨.plain, up.frames.length + 1, _⟩ : Scan)
    change (done.flatMap Mem.bytes).foldl Scan.next ⟨.plain, up.frames.length + 1, max up.depth (up.frames.length + 1)⟩ = _
    rw [memsOk_scan h.2.2 _ _ (Nat.le_max_right ..)]
    simp only [Ctx.depth]
    congr 1
    omega
  | val up l done sep name ih =>
    intro h
    have := depth_frames up
    rw [Ctx.bytes, List.foldl_append, ih h.1, (goes_lead h.2.1).at, List.foldl_cons]
    show _ = (⟨.plain, up.frames.length + 1, _⟩ : Scan)
    change (done.flatMap Mem.bytes ++ (sep.bytes ++ name.bytes)).foldl Scan.next ⟨.plain, up.frames.length + 1, max up.depth (up.frames.length + 1)⟩ = _
    rw [List.foldl_append, memsOk_scan h.2.2.1 _ _ (Nat.le_max_right ..), ((goes_sep (.inl h.2.2.2.1)).append (goes_str h.2.2.2.2))]
    simp only [Ctx.depth]
    congr 1
    omega

/-- more bytes do not have a smaller depth -/
theorem next_max (s : Scan) (b : UInt8) : s.max ≤ (s.next b).max := by
  unfold Scan.next
  cases s.lex <;> dsimp only <;> (repeat' split) <;> first | exact Nat.le_refl _ | exact Nat.le_max_left ..

theorem foldl_max (bs : Bytes) : ∀ s : Scan, s.max ≤ (bs.foldl Scan.next s).max := by
  induction bs with
  | nil => intro s; exact Nat.le_refl _
  | cons b bs ih => intro s; exact Nat.le_trans (next_max s b) (ih _)

theorem nesting_append (a b : Bytes) : nesting a ≤ nesting (a ++ b) := by
  unfold nesting scan
  rw [List.foldl_append]
  exact foldl_max ..

/-- behind the consumed part there is a bracket -/
theorem ctx_bracket {st : Settings} {c : Ctx} {p : Peeked} {l : Lead} {b : UInt8} {rest : Bytes} (h : c.Ok st) (hl : c.LeadFor st p l) (hb : b = 0x5B ∨ b = 0x7B) :
    c.frames.length + 1 ≤ nesting (c.bytes ++ (l.bytes ++ b :: rest)) := by
  have hs := ctx_scan h
  unfold scan at hs
  unfold nesting scan
  rw [List.foldl_append, hs, (goes_lead hl).at, List.foldl_cons]
  refine Nat.le_trans ?_ (foldl_max rest _)
  rcases hb with rfl | rfl <;> exact Nat.le_max_right ..

/-- bytes without brackets behind the consumed part -/
theorem ctx_goes {st : Settings} {c : Ctx} {x : Bytes} {q : Lex} (h : c.Ok st) (hx : Goes .plain x q) : nesting (c.bytes ++ x) = c.depth := by
  have hs := ctx_scan h
  unfold scan at hs
  unfold nesting scan
  rw [List.foldl_append, hs, hx]

end Verif.Nesting
