import Verif.Model.Markers
import Verif.Props.CoreEx
import Mathlib.Data.List.Forall2
/-! C110: the copy of a dataclass is a dataclass with the same fields. -/
set_option linter.unusedSimpArgs false
namespace Verif.Core
open Spec

/-! ### specification: what the `dataclasses` module reads -/
namespace Dataclass

/-- the entries of a dict -/
def entries (W : World) : Val → Option (List (Val × Val))
  | .ref d => match W.H d with
    | .node .dict _ es _ => some es
    | _ => none
  | _ => none

def tentries (heap : List TObj) : TVal → Option (List (TVal × TVal))
  | .ref d => match heap[d]? with
    | some (.node .dict _ es _ _) => some es
    | _ => none
  | _ => none

/-- the attribute `n` of an object of a class with `__slots__` (a `dataclasses.Field`): its state is the pair of None and the dict of the
slots, and setting the state sets the attributes -/
def slot (W : World) (n : String) : Val → Option Val
  | .ref x => match W.H x with
    | .node _ _ _ (some (.opaque (.ref s))) => match W.H s with
      | .tuple [_, d] => (entries W d).bind (lookupGlob W (.str n))
      | _ => none
    | _ => none
  | _ => none

def tslot (heap : List TObj) (n : String) : TVal → Option TVal
  | .ref x => match heap[x]? with
    | some (.node _ _ _ _ (some (.ref s))) => match heap[s]? with
      | some (.tuple [_, d]) => (tentries heap d).bind fun es => lookupD es (.atom (.str n))
      | _ => none
    | _ => none
  | _ => none

/-- `cls.__dataclass_fields__.values()` -/
def allFields (W : World) : Val → Option (List Val)
  | .ref c => match W.H c with
    | .cls _ _ _ dict _ => ((lookupGlob W (.str "__dataclass_fields__") dict).bind (entries W)).map fun es => es.map (·.2)
    | _ => none
  | _ => none

def tallFields (heap : List TObj) : TVal → Option (List TVal)
  | .ref c => match heap[c]? with
    | some (.cls _ _ _ dict _) =>
      ((lookupD dict (.atom (.str "__dataclass_fields__"))).bind (tentries heap)).map fun es => es.map (·.2)
    | _ => none
  | _ => none

/-- the atom a value is, if it is one (a string, a number, an object known by its name) -/
def atomOf (W : World) (v : Val) : Option Atom := match node W v with
  | .atom a => some a
  | _ => none

def tatomOf : TVal → Option Atom
  | .atom a => some a
  | _ => none

/-- the string an atom is -/
def strOf : Atom → Option String
  | .str n => some n
  | _ => none

/-- `f.n is a` -/
def slotIs (W : World) (n : String) (a : Atom) (f : Val) : Bool := (slot W n f).bind (atomOf W) == some a
def tslotIs (heap : List TObj) (n : String) (a : Atom) (f : TVal) : Bool := (tslot heap n f).bind tatomOf == some a

/-- `f.name` -/
def nameOf (W : World) (f : Val) : Option String := ((slot W "name" f).bind (atomOf W)).bind strOf
def tnameOf (heap : List TObj) (f : TVal) : Option String := ((tslot heap "name" f).bind tatomOf).bind strOf

/-- `[f.name for f in cls.__dataclass_fields__.values() if p(f)]` -/
def namesOf (W : World) (p : Val → Bool) (c : Val) : Option (List (Option String)) :=
  (allFields W c).map fun fs => (fs.filter p).map (nameOf W)
def tnamesOf (heap : List TObj) (p : TVal → Bool) (c : TVal) : Option (List (Option String)) :=
  (tallFields heap c).map fun fs => (fs.filter p).map (tnameOf heap)

/-- `dataclasses.fields(cls)`, by name: the fields whose kind is `_FIELD` - not those that are class or init-only variables -/
def fields (W : World) (c : Val) := namesOf W (slotIs W "_field_type" (.glob "dataclasses" "_FIELD")) c
def tfields (heap : List TObj) (c : TVal) := tnamesOf heap (tslotIs heap "_field_type" (.glob "dataclasses" "_FIELD")) c

/-- the fields without default, which every call of the class must give -/
def required (W : World) (c : Val) := namesOf W (fun f => slotIs W "_field_type" (.glob "dataclasses" "_FIELD") f &&
  slotIs W "default" (.glob "dataclasses" "MISSING") f && slotIs W "default_factory" (.glob "dataclasses" "MISSING") f) c
def trequired (heap : List TObj) (c : TVal) := tnamesOf heap (fun f => tslotIs heap "_field_type" (.glob "dataclasses" "_FIELD") f &&
  tslotIs heap "default" (.glob "dataclasses" "MISSING") f && tslotIs heap "default_factory" (.glob "dataclasses" "MISSING") f) c

end Dataclass
open Dataclass

/-! ### proofs -/

section
variable {W : World} {root : Val} {tv : TVal} {heap : List TObj} {φ : Corr}

theorem circular_kind {x : Addr} (h : Circular W x) :
    (∃ co g nm d cl a s, W.H x = .func co g nm d cl a s) ∨ ∃ mt nm bs dict q, W.H x = .cls mt nm bs dict q := by
  obtain ⟨v, hv, _⟩ := h
  cases hx : W.H x with
  | func => exact .inl ⟨_, _, _, _, _, _, _, rfl⟩
  | cls => exact .inr ⟨_, _, _, _, _, rfl⟩
  | _ => rw [hx] at hv; simp [makeRefs] at hv

theorem copied_obj (hc : IsCopy W root tv heap φ) {x : Addr} {t : TVal} (h : CopyVal W φ (.ref x) t) :
    (∃ a, W.H x = .leaf a ∧ t = .atom a) ∨
      ((∀ a, W.H x ≠ .leaf a) ∧ ∃ y o, t = .ref y ∧ heap[y]? = some o ∧ CopyObj W φ x o) ∨
      (Circular W x ∧ ∃ a, W.byName x = some a ∧ t = .atom a) := by
  simp only [CopyVal] at h
  cases hx : W.H x with
  | leaf a => rw [hx] at h; exact .inl ⟨a, rfl, h⟩
  | _ =>
    rw [hx] at h
    rcases h with ⟨y, h3, rfl⟩ | ⟨h3, _, h5⟩
    · obtain ⟨o, h4, h5⟩ := hc.objs x y h3
      exact .inr (.inl ⟨by simp, y, o, rfl, h4, h5⟩)
    · exact .inr (.inr ⟨h3, h5⟩)

theorem copied_atom (hc : IsCopy W root tv heap φ) {v : Val} {t : TVal} (h : CopyVal W φ v t) (a : Atom)
    (ha : ∀ x, W.byName x ≠ some a) : tatomOf t = some a ↔ atomOf W v = some a := by
  cases v with
  | atom b => simp only [CopyVal] at h; subst h; simp [tatomOf, atomOf, node]
  | ref x =>
    rcases copied_obj hc h with ⟨b, h1, rfl⟩ | ⟨h1, y, o, rfl, _, _⟩ | ⟨h1, b, h2, rfl⟩
    · simp [tatomOf, atomOf, node, h1]
    · simp only [tatomOf, atomOf, node]
    · have : b ≠ a := fun e => ha x (e ▸ h2)
      rcases circular_kind h1 with ⟨_, _, _, _, _, _, _, hx⟩ | ⟨_, _, _, _, _, hx⟩ <;> simp [tatomOf, atomOf, node, hx, this]

theorem str_not_name (hw : WF W) (n : String) (x : Addr) : W.byName x ≠ some (.str n) := by
  intro h
  obtain ⟨_, _, e, _⟩ := hw.nameOwn x _ h
  cases e

/-- related options -/
inductive ORel {α β : Type} (R : α → β → Prop) : Option α → Option β → Prop
  | none : ORel R none none
  | some {a b} : R a b → ORel R (some a) (some b)

theorem ORel.bind {α β γ δ : Type} {R : α → β → Prop} {S : γ → δ → Prop} {a b} {f : α → Option γ} {g : β → Option δ}
    (h : ORel R a b) (hfg : ∀ x y, R x y → ORel S (f x) (g y)) : ORel S (a.bind f) (b.bind g) := by
  cases h with
  | none => exact .none
  | some h => exact hfg _ _ h

/-- entries one after the other, related -/
def RelEntries (W : World) (φ : Corr) : List (Val × Val) → List (TVal × TVal) → Prop :=
  List.Forall₂ fun e te => CopyVal W φ e.1 te.1 ∧ CopyVal W φ e.2 te.2

theorem relEntries {es : List (Val × Val)} {tes : List (TVal × TVal)} (h : CopyEntries W φ es tes) : RelEntries W φ es tes := by
  induction es generalizing tes with
  | nil =>
    have h1 : tes = [] := List.length_eq_zero_iff.1 h.1.symm
    subst h1; exact .nil
  | cons e es ih =>
    cases tes with
    | nil => exact absurd h.1 (by simp)
    | cons te tes =>
      obtain ⟨h1, h2⟩ := h
      refine .cons (h2 0 e te rfl rfl) (ih ⟨by simpa using h1, ?_⟩)
      intro i a b ha hb; exact h2 (i + 1) a b (by simpa using ha) (by simpa using hb)

theorem rel_lookup (hw : WF W) (hc : IsCopy W root tv heap φ) {es : List (Val × Val)} {tes : List (TVal × TVal)}
    (h : RelEntries W φ es tes) (k : String) : ORel (CopyVal W φ) (lookupGlob W (.str k) es) (lookupD tes (.atom (.str k))) := by
  induction h with
  | nil => exact .none
  | @cons e te es tes h1 h2 ih =>
    obtain ⟨k1, v1⟩ := e
    obtain ⟨k2, v2⟩ := te
    simp only [lookupGlob, lookupD]
    have := copied_atom hc h1.1 (.str k) (str_not_name hw k)
    have hk : (node W k1 = .atom (.str k)) ↔ k2 = .atom (.str k) := by
      have e1 : atomOf W k1 = some (.str k) ↔ node W k1 = .atom (.str k) := by
        simp only [atomOf]; cases node W k1 <;> simp
      have e2 : tatomOf k2 = some (.str k) ↔ k2 = .atom (.str k) := by
        cases k2 <;> simp [tatomOf]
      rw [← e1, ← e2, this]
    by_cases hh : node W k1 = .atom (.str k)
    · rw [if_pos hh, if_pos (hk.1 hh)]; exact .some h1.2
    · rw [if_neg hh, if_neg (fun g => hh (hk.2 g))]; exact ih

theorem rel_entries (hc : IsCopy W root tv heap φ) {v : Val} {t : TVal} (h : CopyVal W φ v t) :
    ORel (RelEntries W φ) (entries W v) (tentries heap t) := by
  cases v with
  | atom a => simp only [CopyVal] at h; subst h; exact .none
  | ref x =>
    rcases copied_obj hc h with ⟨a, h1, rfl⟩ | ⟨h1, y, o, rfl, h4, h5⟩ | ⟨h1, a, _, rfl⟩
    · simp only [entries, tentries, h1]; exact .none
    · simp only [entries, tentries, h4]
      simp only [CopyObj] at h5
      cases hx : W.H x with
      | leaf a => exact absurd hx (h1 a)
      | node con lits dits st =>
        rw [hx] at h5
        cases o with
        | node tcon l d a s =>
          obtain ⟨k1, _, k3, _⟩ := h5
          cases con <;> cases tcon <;> first | exact absurd k1 id | exact .none | skip
          exact .some (relEntries k3)
        | _ => exact absurd h5 id
      | cell w =>
        rw [hx] at h5
        cases w <;> cases o <;> first | exact absurd h5 id | exact .none
      | _ =>
        rw [hx] at h5
        cases o <;> first | exact absurd h5 id | exact .none
    · rcases circular_kind h1 with ⟨_, _, _, _, _, _, _, hx⟩ | ⟨_, _, _, _, _, hx⟩ <;> simp only [entries, tentries, hx] <;> exact .none

theorem rel_pair (hw : WF W) (hc : IsCopy W root tv heap φ) (n : String) {s : Addr} {tw : TVal} (k5 : CopyVal W φ (.ref s) tw) :
    ORel (CopyVal W φ)
      (match W.H s with | .tuple [_, d] => (entries W d).bind (lookupGlob W (.str n)) | _ => none)
      (match tw with
        | .ref s => (match heap[s]? with
          | some (.tuple [_, d]) => (tentries heap d).bind fun es => lookupD es (.atom (.str n))
          | _ => none)
        | _ => none) := by
  rcases copied_obj hc k5 with ⟨a, g1, rfl⟩ | ⟨g1, u, p, rfl, g4, g5⟩ | ⟨h1, a, _, rfl⟩
  · simp only [g1]; exact .none
  · simp only [g4]
    simp only [CopyObj] at g5
    cases hs : W.H s with
    | leaf a => exact absurd hs (g1 a)
    | tuple vs =>
      rw [hs] at g5
      cases p with
      | tuple ts =>
        have hl := g5.1
        match vs, ts, hl, g5 with
        | [a, b], [c, d], _, g5 => exact (rel_entries hc (g5.2 1 b d rfl rfl)).bind fun _ _ hh => rel_lookup hw hc hh _
        | [], [], _, _ => exact .none
        | [_], [_], _, _ => exact .none
        | _ :: _ :: _ :: _, _ :: _ :: _ :: _, _, _ => exact .none
      | _ => exact absurd g5 id
    | cell w =>
      rw [hs] at g5
      cases w <;> cases p <;> first | exact absurd g5 id | exact .none
    | _ =>
      rw [hs] at g5
      cases p <;> first | exact absurd g5 id | exact .none
  · rcases circular_kind h1 with ⟨_, _, _, _, _, _, _, hx⟩ | ⟨_, _, _, _, _, hx⟩ <;> simp only [hx] <;> exact .none

theorem rel_slot (hw : WF W) (hc : IsCopy W root tv heap φ) {v : Val} {t : TVal} (h : CopyVal W φ v t) (n : String) :
    ORel (CopyVal W φ) (slot W n v) (tslot heap n t) := by
  cases v with
  | atom a => simp only [CopyVal] at h; subst h; exact .none
  | ref x =>
    rcases copied_obj hc h with ⟨a, h1, rfl⟩ | ⟨h1, y, o, rfl, h4, h5⟩ | ⟨h1, a, _, rfl⟩
    · simp only [slot, tslot, h1]; exact .none
    · simp only [slot, tslot, h4]
      simp only [CopyObj] at h5
      cases hx : W.H x with
      | leaf a => exact absurd hx (h1 a)
      | node con lits dits st =>
        rw [hx] at h5
        cases o with
        | node tcon l d a s =>
          obtain ⟨_, _, _, k4⟩ := h5
          cases st with
          | none => obtain ⟨_, rfl⟩ := k4; exact .none
          | some st =>
            cases st with
            | attrs es => obtain ⟨_, rfl⟩ := k4; exact .none
            | «opaque» w =>
              obtain ⟨_, tw, rfl, k5⟩ := k4
              cases w with
              | atom a => simp only [CopyVal] at k5; subst k5; exact .none
              | ref s =>
                have := rel_pair hw hc n k5
                cases tw with
                | atom _ => exact this
                | ref _ => exact this
        | _ => exact absurd h5 id
      | cell w =>
        rw [hx] at h5
        cases w <;> cases o <;> first | exact absurd h5 id | exact .none
      | _ =>
        rw [hx] at h5
        cases o <;> first | exact absurd h5 id | exact .none
    · rcases circular_kind h1 with ⟨_, _, _, _, _, _, _, hx⟩ | ⟨_, _, _, _, _, hx⟩ <;> simp only [slot, tslot, hx] <;> exact .none

theorem rel_slotIs (hw : WF W) (hc : IsCopy W root tv heap φ) {v : Val} {t : TVal} (h : CopyVal W φ v t) (n : String) (a : Atom)
    (ha : ∀ x, W.byName x ≠ some a) : tslotIs heap n a t = slotIs W n a v := by
  have := rel_slot hw hc h n
  simp only [tslotIs, slotIs]
  generalize slot W n v = a at this
  generalize tslot heap n t = b at this
  cases this with
  | none => rfl
  | some h =>
    have := copied_atom hc h a ha
    rw [Bool.eq_iff_iff]
    simpa using this

theorem rel_nameOf (hw : WF W) (hc : IsCopy W root tv heap φ) {v : Val} {t : TVal} (h : CopyVal W φ v t) :
    tnameOf heap t = nameOf W v := by
  have := rel_slot hw hc h "name"
  simp only [tnameOf, nameOf]
  generalize slot W "name" v = a at this
  generalize tslot heap "name" t = b at this
  cases this with
  | none => rfl
  | @some a b h =>
    have key : ∀ n, (tatomOf b).bind strOf = some n ↔ (atomOf W a).bind strOf = some n := by
      intro n
      have e : ∀ o : Option Atom, o.bind strOf = some n ↔ o = some (.str n) := by
        intro o
        cases o with
        | none => simp
        | some c => cases c <;> simp [strOf]
      rw [e, e, copied_atom hc h (.str n) (str_not_name hw n)]
    simp only [Option.bind_some]
    exact Option.ext key

theorem rel_namesOf (hw : WF W) (hc : IsCopy W root tv heap φ) {c : Addr} {t : TVal} (h : CopyVal W φ (.ref c) t)
    (hk : tkind heap t = some (kind W (.ref c))) (hcls : kind W (.ref c) = .cls)
    (p : Val → Bool) (q : TVal → Bool) (hpq : ∀ f g, CopyVal W φ f g → q g = p f) :
    tnamesOf heap q t = namesOf W p (.ref c) := by
  rcases copied_obj hc h with ⟨a, h1, rfl⟩ | ⟨h1, y, o, rfl, h4, h5⟩ | ⟨_, a, _, rfl⟩
  · simp [kind, h1] at hcls
  · simp only [tnamesOf, namesOf, allFields, tallFields, h4]
    simp only [CopyObj] at h5
    cases hx : W.H c with
    | cls mt nm bs dict q' =>
      rw [hx] at h5
      cases o with
      | cls mt' nm' bs' dict' q'' =>
        obtain ⟨_, _, _, k4, _⟩ := h5
        have := (rel_lookup hw hc (relEntries k4) "__dataclass_fields__").bind fun _ _ hh => rel_entries hc hh
        dsimp only
        generalize (lookupGlob W (.str "__dataclass_fields__") dict).bind (entries W) = a at this
        generalize (lookupD dict' (.atom (.str "__dataclass_fields__"))).bind (tentries heap) = b at this
        cases this with
        | none => rfl
        | some hh =>
          simp only [Option.map_some]
          congr 1
          induction hh with
          | nil => rfl
          | cons h1 _ ih =>
            simp only [List.map_cons, List.filter_cons, hpq _ _ h1.2]
            split
            · simp only [List.map_cons, ih, rel_nameOf hw hc h1.2]
            · exact ih
      | _ => exact absurd h5 id
    | node con _ _ _ => cases con <;> simp [kind, hx] at hcls
    | _ => simp [kind, hx] at hcls
  · rw [hcls] at hk; simp [tkind] at hk

end

/-- C110, the general form, for every object graph: wherever a class is, its copy (unless a reference to its name was written, and it was not
copied) gives the same answers as the class whichever attributes of its fields are compared with whichever markers, strings, numbers, or
objects that are not in the graph by value. -/
theorem C110_selected (W : World) (hw : WF W) (n : Nat) (root : Val) (ops : List Op) (h : dumps W n root = .ok ops) :
    ∃ tv heap, load ops = some (tv, heap) ∧ ∀ p c, follow W root p = some (.ref c) → kind W (.ref c) = .cls →
      ByName W root heap tv p ∨
      ∃ t, tfollow heap tv p = some t ∧ tkind heap t = some .cls ∧
        ∀ (conds : List (String × Atom)), (∀ e ∈ conds, ∀ x, W.byName x ≠ some e.2) →
          tnamesOf heap (fun f => conds.all fun e => tslotIs heap e.1 e.2 f) t = namesOf W (fun f => conds.all fun e => slotIs W e.1 e.2 f) (.ref c) := by
  obtain ⟨tv, heap, φ, hl, hc⟩ := C01_isomorphic_copy_partial W hw n root ops h
  refine ⟨tv, heap, hl, ?_⟩
  intro p c hp hk
  refine (path_or_name hw hc hp).imp id ?_
  rintro ⟨t, g1, g2, g3⟩
  refine ⟨t, g1, g3.trans (by rw [hk]), ?_⟩
  intro conds hconds
  refine rel_namesOf hw hc g2 g3 hk _ _ ?_
  intro f g hf
  induction conds with
  | nil => rfl
  | cons e es ih =>
    simp only [List.all_cons, rel_slotIs hw hc hf e.1 e.2 (hconds e (by simp)), ih (fun e' he => hconds e' (by simp [he]))]

/-- C110, for every object graph (in which nothing that is saved by value is found in the dataclasses module): wherever a dataclass is,
its copy is a dataclass with the same fields, in the same order, and the same of them have no default - unless a reference to the name of
a class or function was written on the way to it. -/
theorem C110_dataclass (W : World) (hw : WF W) (hlib : ∀ x a, W.byName x ≠ some (.glob "dataclasses" a))
    (n : Nat) (root : Val) (ops : List Op) (h : dumps W n root = .ok ops) :
    ∃ tv heap, load ops = some (tv, heap) ∧ ∀ p c, follow W root p = some (.ref c) → kind W (.ref c) = .cls →
      ByName W root heap tv p ∨
      ∃ t, tfollow heap tv p = some t ∧ tkind heap t = some .cls ∧
        tfields heap t = fields W (.ref c) ∧ trequired heap t = required W (.ref c) := by
  obtain ⟨tv, heap, hl, hm⟩ := C110_selected W hw n root ops h
  refine ⟨tv, heap, hl, ?_⟩
  intro p c hp hk
  refine (hm p c hp hk).imp id ?_
  rintro ⟨t, h1, h2, h3⟩
  refine ⟨t, h1, h2, ?_, ?_⟩
  · have := h3 [("_field_type", .glob "dataclasses" "_FIELD")] (by simp [hlib])
    simpa [tfields, fields] using this
  · have := h3 [("_field_type", .glob "dataclasses" "_FIELD"), ("default", .glob "dataclasses" "MISSING"),
      ("default_factory", .glob "dataclasses" "MISSING")] (by simp [hlib])
    simpa [trequired, required, Bool.and_assoc] using this

/-- where nothing is needed for its own creation, no references to names are written -/
theorem C110_copied (W : World) (hw : WF W) (hlib : ∀ x a, W.byName x ≠ some (.glob "dataclasses" a))
    (n : Nat) (root : Val) (ops : List Op) (h : dumps W n root = .ok ops) (hnc : ∀ x, Reaches W root x → ¬ Circular W x) :
    ∃ tv heap, load ops = some (tv, heap) ∧ ∀ p c, follow W root p = some (.ref c) → kind W (.ref c) = .cls →
      ∃ t, tfollow heap tv p = some t ∧ tkind heap t = some .cls ∧
        tfields heap t = fields W (.ref c) ∧ trequired heap t = required W (.ref c) := by
  obtain ⟨tv, heap, hl, hm⟩ := C110_dataclass W hw hlib n root ops h
  refine ⟨tv, heap, hl, fun p c hp hk => (hm p c hp hk).resolve_left ?_⟩
  rintro ⟨_, _, x, _, _, g1, g2, _⟩
  exact hnc x (follow_reaches g1) g2

/-- the attributes of the module `dataclasses` that are markers -/
def dataclassesModule : List (String × Marker) :=
  [("_HAS_DEFAULT_FACTORY", .hasDefaultFactory), ("MISSING", .missing), ("KW_ONLY", .kwOnly), ("_FIELD", .fieldBase "_FIELD"),
    ("_FIELD_CLASSVAR", .fieldBase "_FIELD_CLASSVAR"), ("_FIELD_INITVAR", .fieldBase "_FIELD_INITVAR")]

/-- C110: every marker of the module loads as that very object; a `_FIELD_BASE` that someone else made does not, for its name is not there. -/
theorem C110_marker_itself (m : Marker) :
    (∃ a n, saveMarker m = .atom (.glob a n) ∧ a = "dataclasses" ∧ dataclassesModule.lookup n = some m) ↔
      m ∈ dataclassesModule.map (·.2) := by
  cases m with
  | fieldBase name =>
    simp only [saveMarker, Val.atom.injEq, Atom.glob.injEq, dataclassesModule, List.lookup]
    constructor
    · rintro ⟨a, n, ⟨_, rfl⟩, _, h⟩
      split at h
      · simp at h
      split at h
      · simp at h
      split at h
      · simp at h
      split at h
      · cases h; simp
      split at h
      · cases h; simp
      split at h
      · cases h; simp
      · cases h
    · intro h
      simp at h
      rcases h with rfl | rfl | rfl <;> exact ⟨_, _, ⟨rfl, rfl⟩, rfl, rfl⟩
  | _ => exact ⟨fun _ => by simp [dataclassesModule], fun _ => ⟨_, _, rfl, rfl, rfl⟩⟩

namespace MarkersEx
open Ex (s)

/-- the slots of a field -/
def slots (name : String) (dflt factory kind : Val) : List (Val × Val) :=
  [(s "name", s name), (s "default", dflt), (s "default_factory", factory), (s "kw_only", .atom (.bool false)), (s "_field_type", kind)]

/-- 0: `[A, A(..)]`.  1: the dataclass `A` with the fields `x` (no default), `y = 1`, `z = field(default_factory=list)` and the class variable
`k`; 2: its table of fields; 3, 6, 9, 12: the fields, each with its state and its slots; 15: an instance -/
def H : Addr → SObj := fun x => match x with
  | 0 => .node .list [.ref 1, .ref 15] [] none
  | 1 => .cls (.atom (.glob "builtins" "type")) (s "A") (.atom .emptyTuple) [(s "__dataclass_fields__", .ref 2), (s "y", .atom (.int 1))] (s "A")
  | 2 => .node .dict [] [(s "x", .ref 3), (s "y", .ref 6), (s "z", .ref 9), (s "k", .ref 12)] none
  | 3 => .node (.newobj (.atom (.glob "dataclasses" "Field")) []) [] [] (some (.opaque (.ref 4)))
  | 4 => .tuple [.atom .none, .ref 5]
  | 5 => .node .dict [] (slots "x" (saveMarker .missing) (saveMarker .missing) (saveMarker <| .fieldBase "_FIELD")) none
  | 6 => .node (.newobj (.atom (.glob "dataclasses" "Field")) []) [] [] (some (.opaque (.ref 7)))
  | 7 => .tuple [.atom .none, .ref 8]
  | 8 => .node .dict [] (slots "y" (.atom (.int 1)) (saveMarker .missing) (saveMarker <| .fieldBase "_FIELD")) none
  | 9 => .node (.newobj (.atom (.glob "dataclasses" "Field")) []) [] [] (some (.opaque (.ref 10)))
  | 10 => .tuple [.atom .none, .ref 11]
  | 11 => .node .dict [] (slots "z" (saveMarker .missing) (.atom (.glob "builtins" "list")) (saveMarker <| .fieldBase "_FIELD")) none
  | 12 => .node (.newobj (.atom (.glob "dataclasses" "Field")) []) [] [] (some (.opaque (.ref 13)))
  | 13 => .tuple [.atom .none, .ref 14]
  | 14 => .node .dict [] (slots "k" (.atom (.int 1)) (saveMarker .missing) (saveMarker <| .fieldBase "_FIELD_CLASSVAR")) none
  | 15 => .node (.newobj (.ref 1) []) [] [] (some (.attrs [(s "x", .atom (.int 7))]))
  | _ => .leaf .none

def W : World := { Ex.W with H := H }

theorem wf : WF W := by
  refine ⟨rfl, rfl, rfl, rfl, rfl, rfl, rfl, rfl, ?_, (by intro _ _ h; cases h), (by intro _ _ h; cases h), (by intro _ _ _ h; cases h)⟩
  intro x
  have hk : ∀ es : List (Val × Val), ((es.map fun e => res W e.1).Nodup) → KNodup W es := fun _ h => h
  match x with
  | 0 => exact ⟨rfl, rfl⟩
  | 1 => exact hk _ (by decide)
  | 2 => exact ⟨rfl, rfl, hk _ (by decide)⟩
  | 3 => exact ⟨hk _ (by decide), trivial⟩
  | 4 => simp [W, H, WFObj]
  | 5 => exact ⟨rfl, rfl, hk _ (by decide)⟩
  | 6 => exact ⟨hk _ (by decide), trivial⟩
  | 7 => simp [W, H, WFObj]
  | 8 => exact ⟨rfl, rfl, hk _ (by decide)⟩
  | 9 => exact ⟨hk _ (by decide), trivial⟩
  | 10 => simp [W, H, WFObj]
  | 11 => exact ⟨rfl, rfl, hk _ (by decide)⟩
  | 12 => exact ⟨hk _ (by decide), trivial⟩
  | 13 => simp [W, H, WFObj]
  | 14 => exact ⟨rfl, rfl, hk _ (by decide)⟩
  | 15 => exact ⟨hk _ (by decide), hk _ (by decide)⟩
  | _ + 16 => trivial

theorem notCircular (x : Addr) : ¬ Circular W x := by
  rintro ⟨v, hv, hx⟩
  match x with
  | 1 =>
    have closed : ∀ y ∈ [2, 3, 4, 5, 6, 7, 8, 9, 10, 11, 12, 13, 14], ∀ v ∈ eagerRefs 1 (H y),
        ∀ z, v = .ref z → z ∈ [2, 3, 4, 5, 6, 7, 8, 9, 10, 11, 12, 13, 14] := by
      intro y hy v hv z e
      subst e
      simp only [List.mem_cons, List.not_mem_nil, or_false] at hy
      rcases hy with rfl | rfl | rfl | rfl | rfl | rfl | rfl | rfl | rfl | rfl | rfl | rfl | rfl <;>
        simp [H, eagerRefs, refs, conRefs, stRefs, kvVals, slots, s, saveMarker] at hv <;>
        first | (subst hv; decide) | (rcases hv with rfl | rfl | rfl | rfl <;> decide)
    have inS : ∀ v y, Eager W 1 v y → (∀ z, v = .ref z → z ∈ [2, 3, 4, 5, 6, 7, 8, 9, 10, 11, 12, 13, 14]) →
        y ∈ [2, 3, 4, 5, 6, 7, 8, 9, 10, 11, 12, 13, 14] := by
      intro v y h hv
      induction h with
      | here e => exact hv _ e
      | step _ hz ih => exact closed _ ih _ hz _ rfl
    have := inS v 1 hx (by
      intro z e
      subst e
      simp [W, H, makeRefs, kvVals, s] at hv
      simp [hv])
    simp at this
  | 0 | 2 | 3 | 4 | 5 | 6 | 7 | 8 | 9 | 10 | 11 | 12 | 13 | 14 | 15 => cases hv
  | _ + 16 => cases hv

theorem dumped : ∃ ops, dumps W 60 (.ref 0) = .ok ops := by
  have h : (dumps W 60 (.ref 0)).toOption.isSome = true := by decide +kernel
  cases e : dumps W 60 (.ref 0) with
  | ok ops => exact ⟨ops, rfl⟩
  | error e' => rw [e] at h; cases h

/-- the copy of `A`, reached as the first element of the list: the fields `x`, `y` and `z`, and `x` must be given -/
example : ∃ ops tv heap t, dumps W 60 (.ref 0) = .ok ops ∧ load ops = some (tv, heap) ∧ tfollow heap tv [.item 0] = some t ∧
    tfields heap t = some [some "x", some "y", some "z"] ∧ trequired heap t = some [some "x"] := by
  obtain ⟨ops, h⟩ := dumped
  obtain ⟨tv, heap, hl, hm⟩ := C110_copied W wf (by intro _ _ h; cases h) 60 (.ref 0) ops h (fun x _ => notCircular x)
  obtain ⟨t, h1, _, h3, h4⟩ := hm [.item 0] 1 rfl rfl
  exact ⟨ops, tv, heap, t, h, hl, h1, h3.trans (by decide), h4.trans (by decide)⟩

/-- and through the class of the instance -/
example : ∃ ops tv heap t, dumps W 60 (.ref 0) = .ok ops ∧ load ops = some (tv, heap) ∧ tfollow heap tv [.item 1, .callee] = some t ∧
    tfields heap t = some [some "x", some "y", some "z"] := by
  obtain ⟨ops, h⟩ := dumped
  obtain ⟨tv, heap, hl, hm⟩ := C110_copied W wf (by intro _ _ h; cases h) 60 (.ref 0) ops h (fun x _ => notCircular x)
  obtain ⟨t, h1, _, h3, _⟩ := hm [.item 1, .callee] 1 rfl rfl
  exact ⟨ops, tv, heap, t, h, hl, h1, h3.trans (by decide)⟩

/-- the same class, had the marker `_FIELD` (16) been pickled like any other object: an object of its class with its name -/
def plainH : Addr → SObj := fun x => match x with
  | 5 => .node .dict [] (slots "x" (saveMarker .missing) (saveMarker .missing) (.ref 16)) none
  | 8 => .node .dict [] (slots "y" (.atom (.int 1)) (saveMarker .missing) (.ref 16)) none
  | 11 => .node .dict [] (slots "z" (saveMarker .missing) (.atom (.glob "builtins" "list")) (.ref 16)) none
  | 16 => .node (.newobj (.atom (.glob "dataclasses" "_FIELD_BASE")) []) [] [] (some (.opaque (.ref 17)))
  | 17 => .tuple [.atom .none, .ref 18]
  | 18 => .node .dict [] [(s "name", s "_FIELD")] none
  | x => H x

/-- the copy would be a dataclass without fields -/
example : (match dumps { W with H := plainH } 60 (.ref 1) with
    | .ok ops => (match load ops with
      | some (tv, heap) => decide (tfields heap tv = some [])
      | none => false)
    | .error _ => false) = true := by decide +kernel

end MarkersEx

end Verif.Core
