import Verif.Proofs.Abs.Ops
/-! # Invariant of the reader -/

namespace Verif.Abs
open Reader Utf8 Json

/-! ## Correctly consumed parts of documents -/

theorem itemsOk_append {cfg : Cfg} {first : Bool} {xs : List (Sep × Cst)} {x : Sep × Cst} :
    ItemsOk cfg first (xs ++ [x]) ↔ ItemsOk cfg first xs ∧ x.1.Ok cfg (first && xs.isEmpty) ∧ x.2.Ok cfg := by
  induction xs generalizing first with
  | nil => simp [ItemsOk]
  | cons y ys ih => simp [ItemsOk, ih]; exact ⟨fun ⟨a, b, c, d, e⟩ => ⟨⟨a, b, c⟩, d, e⟩, fun ⟨⟨a, b, c⟩, d, e⟩ => ⟨a, b, c, d, e⟩⟩

theorem memsOk_append {cfg : Cfg} {first : Bool} {xs : List Mem} {x : Mem} :
    MemsOk cfg first (xs ++ [x]) ↔ MemsOk cfg first xs ∧ x.Ok cfg (first && xs.isEmpty) := by
  induction xs generalizing first with
  | nil => simp [MemsOk]
  | cons y ys ih => simp [MemsOk, ih]; exact ⟨fun ⟨a, b, c⟩ => ⟨⟨a, b⟩, c⟩, fun ⟨⟨a, b⟩, c⟩ => ⟨a, b, c⟩⟩

theorem bareLast_append (xs : List (Ws × Cst)) (x : Ws × Cst) : bareLast (xs ++ [x]) = x.2.isBare := by
  simp [bareLast]

theorem Ctx.add_lastBare {c : Ctx} {l : Lead} {v : Cst} (h : c.Slot l) : (c.add l v).lastBare = v.isBare := by
  cases c <;> cases l <;> first | exact h.elim | skip
  · exact bareLast_append _ _
  · simp [Ctx.add, Ctx.lastBare]
  · simp [Ctx.add, Ctx.lastBare]

theorem bareLast_cons (x y : Ws × Cst) (xs : List (Ws × Cst)) : bareLast (x :: y :: xs) = bareLast (y :: xs) := by
  simp [bareLast]

theorem topsOk_append {cfg : Cfg} {bare : Bool} {xs : List (Ws × Cst)} {x : Ws × Cst} :
    TopsOk cfg bare (xs ++ [x]) ↔ TopsOk cfg bare xs ∧ x.1.Ok cfg.comments ∧ ((match xs with | [] => bare | _ :: _ => bareLast xs) = true → x.1 ≠ []) ∧ x.2.Ok cfg := by
  induction xs generalizing bare with
  | nil => simp [TopsOk]
  | cons y ys ih =>
    simp only [List.cons_append, TopsOk, ih]
    cases ys with
    | nil => simp [bareLast, TopsOk]; exact ⟨fun ⟨a, b, c, d, e⟩ => ⟨⟨a, b, c⟩, d, e⟩, fun ⟨⟨a, b, c⟩, d, e⟩ => ⟨a, b, c, d, e⟩⟩
    | cons z zs => simp only [bareLast_cons]; exact ⟨fun ⟨a, b, c, d, e⟩ => ⟨⟨a, b, c, d⟩, e⟩, fun ⟨⟨a, b, c, d⟩, e⟩ => ⟨a, b, c, d, e⟩⟩

theorem Ctx.Ok.add {st : Settings} {c : Ctx} {p : Peeked} {l : Lead} {v : Cst} (h : c.Ok st) (hl : c.LeadFor st p l) (hp : isValue p = true)
    (hv : v.Ok (cfgOf st)) : (c.add l v).Ok st := by
  cases c with
  | top done =>
    cases l with
    | ws w =>
      obtain ⟨_, h2, h3, h4⟩ := hl
      refine ⟨topsOk_append.2 ⟨h.1, h2, ?_, hv⟩, ?_⟩
      · cases done with
        | nil => exact nofun
        | cons => exact h4
      · rcases h3 with rfl | h
        · exact .inl (Nat.le_refl _)
        · exact .inr h
    | sep => exact hl.elim
    | colon => exact hl.elim
  | arr up l0 done =>
    cases l with
    | sep s =>
      rcases hl with ⟨rfl, _⟩ | ⟨_, hs⟩
      · exact absurd hp (by decide)
      · exact ⟨h.1, h.2.1, itemsOk_append.2 ⟨h.2.2, hs, hv⟩⟩
    | ws => exact hl.elim
    | colon => exact hl.elim
  | obj up l0 done =>
    cases l with
    | sep s => rcases hl with ⟨rfl, _⟩ | ⟨rfl, _⟩ <;> exact absurd hp (by decide)
    | ws => exact hl.elim
    | colon => exact hl.elim
  | val up l0 done s n =>
    cases l with
    | colon w1 w2 =>
      obtain ⟨_, h2, h3⟩ := hl
      obtain ⟨a, b, c, d, e⟩ := h
      exact ⟨a, b, memsOk_append.2 ⟨c, d, e, h2, h3, hv⟩⟩
    | ws => exact hl.elim
    | sep => exact hl.elim

theorem Ctx.add_bytes {c : Ctx} {l : Lead} {v : Cst} (h : c.Slot l) : (c.add l v).bytes = c.bytes ++ (l.bytes ++ v.bytes) := by
  cases c <;> cases l <;> first | exact h.elim | skip
  · simp [Ctx.add, Ctx.bytes, topBytes, Lead.bytes]
  · simp [Ctx.add, Ctx.bytes, itemBytes, Lead.bytes]
  · simp [Ctx.add, Ctx.bytes, Mem.bytes, Lead.bytes]

/-- items of an array -/
def mkItems (close : Sep) : List (Sep × Cst) → Items
  | [] => .nil close
  | x :: xs => .cons x.1 x.2 (mkItems close xs)

def mkMembers (close : Sep) : List Mem → Members
  | [] => .nil close
  | x :: xs => .cons x.sep x.name x.w1 x.w2 x.v (mkMembers close xs)

theorem mkItems_bytes (close : Sep) (xs : List (Sep × Cst)) : (mkItems close xs).bytes = xs.flatMap itemBytes ++ (close.bytes ++ [0x5D]) := by
  induction xs with
  | nil => simp [mkItems, Items.bytes]
  | cons x xs ih => simp [mkItems, Items.bytes, ih, itemBytes]

theorem mkMembers_bytes (close : Sep) (xs : List Mem) : (mkMembers close xs).bytes = xs.flatMap Mem.bytes ++ (close.bytes ++ [0x7D]) := by
  induction xs with
  | nil => simp [mkMembers, Members.bytes]
  | cons x xs ih => simp [mkMembers, Members.bytes, ih, Mem.bytes]

theorem mkItems_ok {cfg : Cfg} {close : Sep} {xs : List (Sep × Cst)} {first : Bool} (h : ItemsOk cfg first xs) (hc : close.OkEnd cfg (first && xs.isEmpty)) :
    (mkItems close xs).Ok cfg first := by
  induction xs generalizing first with
  | nil => simpa [mkItems, mkMembers, Items.Ok, Members.Ok] using hc
  | cons x xs ih => exact ⟨h.1, h.2.1, ih h.2.2 (by simpa using hc)⟩

theorem mkMembers_ok {cfg : Cfg} {close : Sep} {xs : List Mem} {first : Bool} (h : MemsOk cfg first xs) (hc : close.OkEnd cfg (first && xs.isEmpty)) :
    (mkMembers close xs).Ok cfg first := by
  induction xs generalizing first with
  | nil => simpa [mkItems, mkMembers, Items.Ok, Members.Ok] using hc
  | cons x xs ih => exact ⟨h.1.1, h.1.2.1, h.1.2.2.1, h.1.2.2.2.1, h.1.2.2.2.2, ih h.2 (by simpa using hc)⟩

/-! ## Line breaks between tokens -/

/-- the consumed bytes do not end with a carriage return -/
def NoCr (bs : Bytes) : Prop := bs.getLast? ≠ some 0x0D

theorem NoCr.noSplit {a b : Bytes} (h : NoCr a) : NoSplit a b := fun h' => absurd h' h

theorem noCr_append {a b : Bytes} (hb : b ≠ []) (h : NoCr b) : NoCr (a ++ b) := by
  unfold NoCr
  rw [List.getLast?_append, List.getLast?_eq_some_getLast hb]
  rw [NoCr, List.getLast?_eq_some_getLast hb] at h
  exact h

theorem noCr_snoc (a : Bytes) {b : UInt8} (h : b ≠ 0x0D) : NoCr (a ++ [b]) := noCr_append (by simp) (by simpa [NoCr] using h)

theorem str_noCr (x : Str) : NoCr x.bytes := by
  show NoCr (0x22 :: (x.body ++ [0x22]))
  rw [← List.cons_append]
  exact noCr_snoc _ (by decide)

theorem Items.noCr (is : Items) : NoCr is.bytes ∧ is.bytes ≠ [] := by
  cases is with
  | nil close => exact ⟨noCr_snoc _ (by decide), by simp [Items.bytes]⟩
  | cons sep v rest =>
    have := Items.noCr rest
    exact ⟨noCr_append (by simp [this.2]) (noCr_append this.2 this.1), by simp [Items.bytes, this.2]⟩

theorem Members.noCr (ms : Members) : NoCr ms.bytes ∧ ms.bytes ≠ [] := by
  cases ms with
  | nil close => exact ⟨noCr_snoc _ (by decide), by simp [Members.bytes]⟩
  | cons sep n w1 w2 v rest =>
    have := Members.noCr rest
    refine ⟨?_, by simp [Members.bytes]⟩
    rw [Members.bytes]
    simp only [← List.append_assoc, ← List.cons_append]
    exact noCr_append this.2 this.1

theorem Cst.noCr {v : Cst} {cfg : Cfg} (h : v.Ok cfg) : NoCr v.bytes ∧ v.bytes ≠ [] := by
  cases v with
  | null => exact ⟨by simp [NoCr, Cst.bytes], by simp [Cst.bytes]⟩
  | bool b => cases b <;> exact ⟨by simp [NoCr, Cst.bytes], by simp [Cst.bytes]⟩
  | num bs =>
    refine ⟨?_, isNumber_ne_nil h⟩
    intro h'
    have := List.mem_of_getLast? h'
    exact (isNumber_plain h _ this).2.2 rfl
  | str x => exact ⟨str_noCr x, by simp [Cst.bytes, Str.bytes]⟩
  | arr is => exact ⟨noCr_append (a := [0x5B]) (Items.noCr is).2 (Items.noCr is).1, by simp [Cst.bytes]⟩
  | obj ms => exact ⟨noCr_append (a := [0x7B]) (Members.noCr ms).2 (Members.noCr ms).1, by simp [Cst.bytes]⟩

theorem Ctx.noCr {st : Settings} {c : Ctx} (h : c.Ok st) : NoCr c.bytes := by
  have snoc : ∀ {α : Type} (f : α → Bytes) (a : Bytes) (xs : List α) (b : UInt8), b ≠ 0x0D → (∀ x ∈ xs, NoCr (f x) ∧ f x ≠ []) → NoCr (a ++ b :: xs.flatMap f) := by
    intro α f a xs b hb h
    rcases List.eq_nil_or_concat xs with rfl | ⟨ys, y, rfl⟩
    · exact noCr_snoc _ hb
    · rw [List.concat_eq_append, List.flatMap_append]
      have hy := h y (by simp)
      rw [← List.cons_append, ← List.append_assoc]
      refine noCr_append ?_ ?_ <;> simp [hy.1, hy.2]
  have app : ∀ {a b : Bytes}, NoCr b ∧ b ≠ [] → NoCr (a ++ b) ∧ a ++ b ≠ [] := fun h => ⟨noCr_append h.2 h.1, by simp [h.2]⟩
  have items : ∀ {xs : List (Sep × Cst)} {first : Bool}, ItemsOk (cfgOf st) first xs → ∀ x ∈ xs, NoCr (itemBytes x) ∧ itemBytes x ≠ [] := by
    intro xs
    induction xs with
    | nil => intro _ _ x hx; cases hx
    | cons y ys ih =>
      intro first h x hx
      rcases List.mem_cons.1 hx with rfl | hx
      · exact app (Cst.noCr h.2.1)
      · exact ih h.2.2 x hx
  have mems : ∀ {xs : List Mem} {first : Bool}, MemsOk (cfgOf st) first xs → ∀ x ∈ xs, NoCr (Mem.bytes x) ∧ Mem.bytes x ≠ [] := by
    intro xs
    induction xs with
    | nil => intro _ _ x hx; cases hx
    | cons y ys ih =>
      intro first h x hx
      rcases List.mem_cons.1 hx with rfl | hx
      · exact app (app (app (app (a := [0x3A]) (app (Cst.noCr h.1.2.2.2.2)))))
      · exact ih h.2 x hx
  cases c with
  | top done =>
    have h := h.1
    have tops : ∀ {xs : List (Ws × Cst)} {bare : Bool}, TopsOk (cfgOf st) bare xs → ∀ x ∈ xs, NoCr (topBytes x) ∧ topBytes x ≠ [] := by
      intro xs
      induction xs with
      | nil => intro _ _ x hx; cases hx
      | cons y ys ih =>
        intro bare h x hx
        rcases List.mem_cons.1 hx with rfl | hx
        · exact app (Cst.noCr h.2.2.1)
        · exact ih h.2.2.2 x hx
    have h := tops h
    show NoCr (done.flatMap topBytes)
    rcases List.eq_nil_or_concat done with rfl | ⟨ys, y, rfl⟩
    · simp [NoCr]
    · rw [List.concat_eq_append, List.flatMap_append]
      have hy := h y (by simp)
      refine noCr_append ?_ ?_ <;> simp [hy.1, hy.2]
  | arr up l done =>
    show NoCr (up.bytes ++ (l.bytes ++ _))
    rw [← List.append_assoc]
    exact snoc _ _ _ _ (by decide) (items h.2.2)
  | obj up l done =>
    show NoCr (up.bytes ++ (l.bytes ++ _))
    rw [← List.append_assoc]
    exact snoc _ _ _ _ (by decide) (mems h.2.2)
  | val up l done sep name =>
    show NoCr (up.bytes ++ (l.bytes ++ 0x7B :: (done.flatMap Mem.bytes ++ (sep.bytes ++ name.bytes))))
    simp only [← List.append_assoc, ← List.cons_append]
    exact noCr_append (by simp [Str.bytes]) (str_noCr name)

end Verif.Abs
