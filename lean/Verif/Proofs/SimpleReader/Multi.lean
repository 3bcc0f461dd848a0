import Verif.Proofs.SimpleReader.Loops
import Verif.Proofs.SimpleReader.Sticky
/-! # The Simple reader API: multi paths -/

namespace Verif.SimpleReader
open Reader Json Cursor
open Abs (St RepC)
open SimpleReaderSpec (SKind Ans Env each visit joinAll)

/-! ## The converted path -/

/-- `visit` for the converted path -/
def pvisit : List PartialPath → JVal → List JVal × Option Kind
  | [], v => ([v], none)
  | .jsonPath p :: path, v => match find p v with
    | .ok w => pvisit path w
    | .error e => ([], some e)
  | .allArrayItems allowEmpty :: path, v => match v with
    | .arr vs => if vs.isEmpty && !allowEmpty then ([], some (.structure .fewerElementsThanExpected)) else joinAll (vs.map (pvisit path))
    | v => ([], some (.type .array (typeOf v)))
  | .optionalObjectMember name :: path, v => match v with
    | .obj ms => match ms.find? fun m => m.1 = name with
      | some m => pvisit path m.2
      | none => ([], none)
    | v => ([], some (.type .object (typeOf v)))
  | .allObjectMembers allowEmpty :: path, v => match v with
    | .obj ms => if ms.isEmpty && !allowEmpty then ([], some (.structure .fewerElementsThanExpected)) else joinAll ((ms.map Prod.snd).map (pvisit path))
    | v => ([], some (.type .object (typeOf v)))

/-- number of pieces -/
def plen : PartialPath → Nat
  | .jsonPath p => p.length
  | _ => 1

/-- `find` and then `f` -/
def andThen (p : List PathPiece) (f : JVal → List JVal × Option Kind) (v : JVal) : List JVal × Option Kind := match find p v with
  | .ok w => f w
  | .error e => ([], some e)

theorem find_append (p q : List PathPiece) : ∀ v, find (p ++ q) v = match find p v with
    | .ok w => find q w
    | .error e => .error e := by
  induction p with
  | nil => intro v; rw [List.nil_append, find]
  | cons x p ih =>
    intro v
    rw [List.cons_append]
    cases x with
    | arrayItem i =>
      cases v with
      | arr vs =>
        rw [find, find]
        cases vs[i]? with
        | some w => exact ih w
        | none => rfl
      | _ => rfl
    | objectMember name =>
      cases v with
      | obj ms =>
        rw [find, find]
        cases ms.find? fun m => m.1 = name with
        | some w => exact ih w.2
        | none => rfl
      | _ => rfl

theorem andThen_snoc (p : List PathPiece) (x : PathPiece) (f : JVal → List JVal × Option Kind) (v : JVal) : andThen (p ++ [x]) f v = andThen p (andThen [x] f) v := by
  unfold andThen
  rw [find_append]
  cases find p v <;> rfl

theorem convertLoop_acc (path : List MultiPiece) : ∀ (acc : List PartialPath) (sec : Option (List PathPiece)), convertLoop acc sec path = acc ++ convertLoop [] sec path := by
  have hp : ∀ acc sec, pushSection acc sec = acc ++ pushSection [] sec := by
    intro acc sec
    cases sec with
    | none => rw [pushSection, pushSection, List.append_nil]
    | some s => rw [pushSection, pushSection, List.nil_append]
  induction path with
  | nil => intro acc sec; rw [convertLoop, convertLoop, hp]
  | cons x path ih =>
    intro acc sec
    cases x with
    | arrayItem i => rw [convertLoop, convertLoop, ih]
    | objectMember name => rw [convertLoop, convertLoop, ih]
    | _ => rw [convertLoop, convertLoop, ih, ih (pushSection [] sec ++ _), hp]; simp only [List.append_assoc]

theorem pvisit_section (sec : Option (List PathPiece)) (ps : List PartialPath) (v : JVal) : pvisit (pushSection [] sec ++ ps) v = andThen (sec.getD []) (pvisit ps) v := by
  cases sec with
  | none => rfl
  | some s => rfl

theorem visit_item (i : Nat) (path : List MultiPiece) (v : JVal) : visit (.arrayItem i :: path) v = andThen [.arrayItem i] (visit path) v := by
  unfold visit andThen
  cases v with
  | arr vs => dsimp only; rw [find]; cases vs[i]? <;> rfl
  | _ => rfl

theorem visit_member (name : Text) (path : List MultiPiece) (v : JVal) : visit (.objectMember name :: path) v = andThen [.objectMember name] (visit path) v := by
  unfold visit andThen
  cases v with
  | obj ms => dsimp only; rw [find]; cases ms.find? fun m => m.1 = name <;> rfl
  | _ => rfl

theorem convert_visit (path : List MultiPiece) : ∀ (sec : Option (List PathPiece)) (v : JVal), pvisit (convertLoop [] sec path) v = andThen (sec.getD []) (visit path) v := by
  induction path with
  | nil =>
    intro sec v
    rw [convertLoop]
    have := pvisit_section sec [] v
    rw [List.append_nil] at this
    rw [this]
    rfl
  | cons x path ih =>
    intro sec v
    have hn : ∀ w, pvisit (convertLoop [] none path) w = visit path w := fun w => ih none w
    have hm : ∀ ws : List JVal, ws.map (pvisit (convertLoop [] none path)) = ws.map (visit path) := fun ws => List.map_congr_left fun w _ => hn w
    have hc : ∀ y z, (∀ w, pvisit (y :: convertLoop [] none path) w = visit (z :: path) w) → pvisit ((pushSection [] sec ++ [y]) ++ convertLoop [] none path) v = andThen (sec.getD []) (visit (z :: path)) v := by
      intro y z h
      rw [List.append_assoc, pvisit_section]
      exact congrArg (fun f => andThen (sec.getD []) f v) (funext h)
    cases x with
    | arrayItem i =>
      rw [convertLoop, ih]
      show andThen (sec.getD [] ++ [_]) _ v = _
      rw [andThen_snoc]
      exact congrArg (fun f => andThen (sec.getD []) f v) (funext fun w => (visit_item i path w).symm)
    | objectMember name =>
      rw [convertLoop, ih]
      show andThen (sec.getD [] ++ [_]) _ v = _
      rw [andThen_snoc]
      exact congrArg (fun f => andThen (sec.getD []) f v) (funext fun w => (visit_member name path w).symm)
    | allArrayItems e =>
      rw [convertLoop, convertLoop_acc]
      refine hc _ _ fun w => ?_
      cases w with
      | arr vs => rw [pvisit, visit, hm]
      | _ => rfl
    | optionalObjectMember name =>
      rw [convertLoop, convertLoop_acc]
      refine hc _ _ fun w => ?_
      cases w with
      | obj ms =>
        rw [pvisit, visit]
        cases ms.find? fun m => m.1 = name with
        | some m => exact hn m.2
        | none => rfl
      | _ => rfl
    | allObjectMembers e =>
      rw [convertLoop, convertLoop_acc]
      refine hc _ _ fun w => ?_
      cases w with
      | obj ms => rw [pvisit, visit, hm, List.map_map]; rfl
      | _ => rfl

/-- the converted path describes the same values -/
theorem convertPath_visit (path : List MultiPiece) (v : JVal) : pvisit (convertPath path) v = visit path v := convert_visit path none v

theorem convertLoop_plen (path : List MultiPiece) : ∀ (sec : Option (List PathPiece)), ((convertLoop [] sec path).map plen).sum = (sec.getD []).length + path.length := by
  induction path with
  | nil => intro sec; cases sec <;> rw [convertLoop, pushSection] <;> simp [plen]
  | cons x path ih =>
    intro sec
    have hp : ((pushSection [] sec).map plen).sum = (sec.getD []).length := by cases sec <;> rw [pushSection] <;> simp [plen]
    cases x with
    | arrayItem i => rw [convertLoop, ih]; simp; omega
    | objectMember name => rw [convertLoop, ih]; simp; omega
    | _ => rw [convertLoop, convertLoop_acc, List.map_append, List.sum_append, ih, List.map_append, List.sum_append, hp]; simp [plen]; omega

theorem convertLoop_sections (path : List MultiPiece) : ∀ (sec : Option (List PathPiece)), sec ≠ some [] → .jsonPath [] ∉ convertLoop [] sec path := by
  have hp : ∀ sec, sec ≠ some [] → .jsonPath [] ∉ pushSection [] sec := by
    intro sec h
    cases sec with
    | none => simp [pushSection]
    | some s =>
      rw [pushSection]
      simp only [List.nil_append, List.mem_singleton, PartialPath.jsonPath.injEq]
      exact fun h' => h (congrArg some h'.symm)
  induction path with
  | nil => intro sec h; exact hp sec h
  | cons x path ih =>
    intro sec h
    cases x with
    | arrayItem i => rw [convertLoop]; exact ih _ (by simp)
    | objectMember name => rw [convertLoop]; exact ih _ (by simp)
    | _ =>
      rw [convertLoop, convertLoop_acc]
      simp only [List.mem_append, List.mem_singleton, not_or]
      exact ⟨⟨hp sec h, by nofun⟩, ih none nofun⟩

/-! ## Results -/

section
variable {E α β γ : Type}

theorem answer_assoc (a : Answer E α) (f : α → Answer E β) (g : β → Answer E γ) : a >>= f >>= g = a >>= fun x => f x >>= g := by cases a <;> rfl
theorem answer_ok (a : Answer E α) : a >>= Answer.ok = a := by cases a <;> rfl
end

variable {V : Type} {st : Settings} {T : Tops} {b : Prop} {k : Cur} {fuel : Nat} {env : Env} {v : JVal}

/-- calls of the closure, and the error at the end; the state is the result of the last call of the closure, and whether there has been one -/
def outcome (g : V → JVal → Ans V) (r : List JVal × Option Kind) (s : V × Bool) : Ans (V × Bool) := do
  let y ← each g s.1 r.1
  match r.2 with
  | some e => .err (.reader e)
  | none => .ok (y, s.2 || !r.1.isEmpty)

theorem each_append (g : V → JVal → Ans V) (ws : List JVal) : ∀ (vs : List JVal) (x : V), each g x (vs ++ ws) = each g x vs >>= fun y => each g y ws
  | [], x => rfl
  | v :: vs, x => by
    rw [List.cons_append, each, each, answer_assoc]
    exact congrArg (fun f => g x v >>= f) (funext fun y => each_append g ws vs y)

theorem outcome_join {τ : Type} (g : V → JVal → Ans V) (r : List JVal × Option Kind) (rs : List (List JVal × Option Kind)) (s : V × Bool) (l : V × Bool → Ans τ) :
    outcome g (joinAll (r :: rs)) s >>= l = outcome g r s >>= fun s' => outcome g (joinAll rs) s' >>= l := by
  obtain ⟨vs, e⟩ := r
  cases e with
  | some e =>
    rw [joinAll]
    unfold outcome
    dsimp only
    cases each g s.1 vs <;> rfl
  | none =>
    rw [joinAll]
    unfold outcome
    dsimp only
    rw [each_append, answer_assoc, answer_assoc, answer_assoc]
    refine congrArg (fun f => each g s.1 vs >>= f) (funext fun y => ?_)
    show _ = (each g y (joinAll rs).1 >>= _) >>= l
    rw [answer_assoc]
    refine congrArg (fun f => each g y (joinAll rs).1 >>= f) (funext fun z => ?_)
    cases (joinAll rs).2 with
    | some e => rfl
    | none =>
      show l _ = l _
      congr 2
      cases vs <;> simp

theorem outcome_nil {τ : Type} (g : V → JVal → Ans V) (s : V × Bool) (l : V × Bool → Ans τ) : outcome g (joinAll []) s >>= l = l s := by
  show l (s.1, s.2 || false) = l s
  rw [Bool.or_false]

theorem outcome_one {τ : Type} (g : V → JVal → Ans V) (w : JVal) (s : V × Bool) (l : V × Bool → Ans τ) : outcome g ([w], none) s >>= l = g s.1 w >>= fun y => l (y, true) := by
  unfold outcome
  dsimp only
  rw [each, answer_assoc, answer_assoc]
  refine congrArg (fun f => g s.1 w >>= f) (funext fun y => ?_)
  show l (y, s.2 || true) = _
  rw [Bool.or_true]

/-- the values which are matched by the last piece -/
theorem joinAll_last : ∀ vs : List JVal, joinAll (vs.map (pvisit [])) = (vs, none)
  | [] => rfl
  | v :: vs => by
    rw [List.map_cons, pvisit, joinAll, joinAll_last vs]
    rfl

theorem outcome_last {τ : Type} (g : V → JVal → Ans V) (w : JVal) (ws : List JVal) (s : V × Bool) (l : V × Bool → Ans τ) :
    outcome g (joinAll ((w :: ws).map (pvisit []))) s >>= l = g s.1 w >>= fun y => each g y ws >>= fun z => l (z, true) := by
  rw [joinAll_last]
  unfold outcome
  dsimp only
  rw [each, answer_assoc, answer_assoc]
  refine congrArg (fun f => g s.1 w >>= f) (funext fun y => ?_)
  refine congrArg (fun f => each g y ws >>= f) (funext fun z => ?_)
  show l (z, s.2 || true) = _
  rw [Bool.or_true]

theorem outcome_err {τ : Type} (g : V → JVal → Ans V) (e : Kind) (s : V × Bool) (l : V × Bool → Ans τ) : outcome g ([], some e) s >>= l = .err (.reader e) := rfl

/-! ## Places -/

/-- in front of a value -/
abbrev InFront (st : Settings) (fuel : Nat) (k : Cur) (v : JVal) : Prop := Here st fuel k ⟨st, k.frames.length⟩ v

theorem find_weight : ∀ (p : List PathPiece) {v w : JVal}, find p v = .ok w → weight w + 2 * p.length ≤ weight v
  | [], v, w, h => by cases h; simp
  | .arrayItem i :: p, v, w, h => by
    cases v with
    | arr vs =>
      rw [find] at h
      cases hi : vs[i]? with
      | none => rw [hi] at h; cases h
      | some u =>
        rw [hi] at h
        have h1 := find_weight p h
        have h2 := weightItems_mem (List.mem_of_getElem? hi)
        rw [weight, List.length_cons]
        omega
    | _ => cases h
  | .objectMember name :: p, v, w, h => by
    cases v with
    | obj ms =>
      rw [find] at h
      cases hi : ms.find? fun m => m.1 = name with
      | none => rw [hi] at h; cases h
      | some u =>
        rw [hi] at h
        have h1 := find_weight p h
        have h2 := weightItems_mem (List.mem_map_of_mem (f := Prod.snd) (List.mem_of_find?_eq_some hi))
        rw [weight, weightMembers_map, List.length_cons]
        omega
    | _ => cases h

theorem find_depth' : ∀ (p : List PathPiece) {v w : JVal}, find p v = .ok w → p.length + depth w ≤ depth v
  | [], v, w, h => by cases h; simp
  | .arrayItem i :: p, v, w, h => by
    cases v with
    | arr vs =>
      rw [find] at h
      cases hi : vs[i]? with
      | none => rw [hi] at h; cases h
      | some u =>
        rw [hi] at h
        have h1 := find_depth' p h
        have h2 := depthItems_mem (List.mem_of_getElem? hi)
        rw [depth, List.length_cons]
        omega
    | _ => cases h
  | .objectMember name :: p, v, w, h => by
    cases v with
    | obj ms =>
      rw [find] at h
      cases hi : ms.find? fun m => m.1 = name with
      | none => rw [hi] at h; cases h
      | some u =>
        rw [hi] at h
        have h1 := find_depth' p h
        have h2 := depthItems_mem (List.mem_map_of_mem (f := Prod.snd) (List.mem_of_find?_eq_some hi))
        rw [depth, depthMembers_map, List.length_cons]
        omega
    | _ => cases h

theorem find_ne_other : ∀ (p : List PathPiece) {v : JVal} {e : Kind}, find p v = .error e → e ≠ .other
  | [], v, e, h => by cases h
  | .arrayItem i :: p, v, e, h => by
    cases v with
    | arr vs =>
      rw [find] at h
      cases hi : vs[i]? with
      | none => rw [hi] at h; cases h; nofun
      | some u => rw [hi] at h; exact find_ne_other p h
    | _ => cases h; nofun
  | .objectMember name :: p, v, e, h => by
    cases v with
    | obj ms =>
      rw [find] at h
      cases hi : ms.find? fun m => m.1 = name with
      | none => rw [hi] at h; cases h; nofun
      | some u => rw [hi] at h; exact find_ne_other p h
    | _ => cases h; nofun

theorem Here.notDeep (h : Here st fuel k env v) {s : Step} : ¬ DeepStop st (k.frames.length + depth v) s := by
  rintro ⟨n, h1, h2, _⟩
  have := h.fits n h1
  rw [h.opened] at this
  omega

/-- `seek_to` for a path which leads to a value, and the way back -/
theorem Here.seek (h : Here st fuel k env v) {p : List PathPiece} {w : JVal} (hp : find p v = .ok w) :
    ∃ c, Cursor.step st k (.seekTo p) = .ok .unit c ∧ Here st fuel c (env.inside p.length) w ∧ Cursor.step st c.advance (.seekBack p) = .ok .unit k.advance := by
  have h1 := (seek_find (st := st) p h.can h.next).resolve_left h.notDeep
  rw [hp] at h1
  obtain ⟨c, h2, h3, h4, h5⟩ := h1
  refine ⟨c, ?_, ⟨h4, h3, ?_, ?_, ?_, h.st⟩, ?_⟩
  · unfold Cursor.step
    dsimp only
    rw [h.withValue, h2]
  · show env.opened + p.length = _
    rw [h5, h.opened]
  · intro n hn
    have := h.fits n hn
    have := find_depth' p hp
    show env.opened + p.length + depth w ≤ n
    omega
  · have := h.fuel
    have := find_weight p hp
    omega
  · have h6 := (seek_back (st := st) p h.can h.next h2).resolve_right h.notDeep
    have hs : c.advance.str = false := by
      have := canValue_str h4
      unfold Cur.advance
      split <;> exact this
    unfold Cursor.step
    dsimp only
    rw [if_neg (by rw [hs]; exact Bool.false_ne_true), h6]

theorem Here.seek_err (h : Here st fuel k env v) {p : List PathPiece} {e : Kind} (hp : find p v = .error e) : stepAnswer (Cursor.step st k (.seekTo p)) = .err e := by
  have h1 := (seek_find (st := st) p h.can h.next).resolve_left h.notDeep
  rw [hp] at h1
  unfold Cursor.step
  dsimp only
  rw [h.withValue, h1]
  rfl

end Verif.SimpleReader
