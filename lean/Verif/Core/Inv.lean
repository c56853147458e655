import Verif.Spec.WF
import Verif.Spec.Refs
/-! Relations between the source heap and the loaded heap, the simulation invariant and its basic lemmas
(used for C01-C05). -/
set_option linter.unusedSimpArgs false
namespace Verif.Core
open Spec

inductive All2 {α β : Type} (R : α → β → Prop) : List α → List β → Prop
  | nil : All2 R [] []
  | cons {a b as bs} : R a b → All2 R as bs → All2 R (a :: as) (b :: bs)

namespace All2
variable {α β : Type} {R S : α → β → Prop}
theorem mono (h : ∀ a b, R a b → S a b) {as bs} (x : All2 R as bs) : All2 S as bs := by
  induction x with
  | nil => exact .nil
  | cons r _ ih => exact .cons (h _ _ r) ih
theorem append {as bs cs ds} (x : All2 R as bs) (y : All2 R cs ds) : All2 R (as ++ cs) (bs ++ ds) := by
  induction x with
  | nil => exact y
  | cons r _ ih => exact .cons r ih
theorem length {as bs} (x : All2 R as bs) : as.length = bs.length := by
  induction x with
  | nil => rfl
  | cons _ _ ih => simp [ih]
theorem mem_left {as bs a} (x : All2 R as bs) (h : a ∈ as) : ∃ b ∈ bs, R a b := by
  induction x with
  | nil => cases h
  | cons r _ ih =>
    rcases List.mem_cons.1 h with rfl | h
    · exact ⟨_, by simp, r⟩
    · obtain ⟨b, hb, hr⟩ := ih h; exact ⟨b, by simp [hb], hr⟩
theorem mem_right {as bs b} (x : All2 R as bs) (h : b ∈ bs) : ∃ a ∈ as, R a b := by
  induction x with
  | nil => cases h
  | cons r _ ih =>
    rcases List.mem_cons.1 h with rfl | h
    · exact ⟨_, by simp, r⟩
    · obtain ⟨a, ha, hr⟩ := ih h; exact ⟨a, by simp [ha], hr⟩
theorem get {as bs} (x : All2 R as bs) (i : Nat) (a : α) (h : as[i]? = some a) :
    ∃ b, bs[i]? = some b ∧ R a b := by
  induction x generalizing i with
  | nil => simp at h
  | cons r _ ih =>
    cases i with
    | zero => simp at h; subst h; exact ⟨_, rfl, r⟩
    | succ i => simp at h; simpa using ih i h
end All2

/-! ### prefixes -/

theorem prefix_get {α : Type} {l l' : List α} (h : l <+: l') {i : Nat} {a : α} (hi : l[i]? = some a) :
    l'[i]? = some a := by
  obtain ⟨s, rfl⟩ := h
  rw [List.getElem?_append_left]
  · exact hi
  · exact (List.getElem?_eq_some_iff.1 hi).1

theorem prefix_len {α : Type} {l l' : List α} (h : l <+: l') : l.length ≤ l'.length := h.length_le

theorem prefix_get_lt {α : Type} {l l' : List α} (h : l <+: l') {i : Nat} (hi : i < l.length) :
    l'[i]? = l[i]? := by
  have := List.getElem?_eq_getElem hi
  rw [this]; exact prefix_get h this

theorem prefix_set {α : Type} {l l' : List α} (h : l <+: l') {t : Nat} (ht : l.length ≤ t) (x : α) :
    l <+: l'.set t x := by
  obtain ⟨s, rfl⟩ := h
  rw [List.set_append_right _ _ ht]
  exact ⟨_, rfl⟩

theorem prefix_append_one {α : Type} (l : List α) (x : α) : l <+: l ++ [x] := ⟨[x], rfl⟩

theorem prefix_mem {α : Type} {l l' : List α} (h : l <+: l') {x : α} (hx : x ∈ l) : x ∈ l' := by
  obtain ⟨s, rfl⟩ := h; simp [hx]

/-! ### values -/

def isFC : SObj → Prop
  | .func .. => True
  | .cls .. => True
  | _ => False

/-- the function or class `x` was replaced by a reference to its name -/
def NamedV (W : World) (x : Addr) (tv : TVal) : Prop := isFC (W.H x) ∧ ∃ a, W.byName x = some a ∧ tv = .atom a

/-- the loaded value `tv` is the copy of `v` -/
def VRel (W : World) (pm : List Key) (mm : List TVal) (v : Val) (tv : TVal) : Prop :=
  match res W v with
  | .inl a => tv = .atom a
  | .inr x => ∃ i : Nat, pm[i]? = some (.obj x) ∧ mm[i]? = some tv ∧ ((∃ t, tv = .ref t) ∨ NamedV W x tv)

def KVRel (W : World) (pm : List Key) (mm : List TVal) (e : Val × Val) (te : TVal × TVal) : Prop :=
  VRel W pm mm e.1 te.1 ∧ VRel W pm mm e.2 te.2

section mono
variable {W : World} {pm pm' : List Key} {mm mm' : List TVal}

theorem VRel.mono (hp : pm <+: pm') (hm : mm <+: mm') {v tv} (h : VRel W pm mm v tv) :
    VRel W pm' mm' v tv := by
  unfold VRel at *
  split at h
  · exact h
  · obtain ⟨i, h1, h2, h3⟩ := h
    exact ⟨i, prefix_get hp h1, prefix_get hm h2, h3⟩

theorem KVRel.mono (hp : pm <+: pm') (hm : mm <+: mm') {v tv} (h : KVRel W pm mm v tv) :
    KVRel W pm' mm' v tv := ⟨h.1.mono hp hm, h.2.mono hp hm⟩

end mono

/-! ### objects -/

/-- entries a copied globals dict is made of -/
def globSrc (W : World) (f : Addr) : List (Val × Val) :=
  match W.H f with
  | .func _ (.copied init copy) _ _ _ _ _ => init ++ copy
  | _ => []

def globCopy (W : World) (f : Addr) : List (Val × Val) :=
  match W.H f with
  | .func _ (.copied _ copy) _ _ _ _ _ => copy
  | _ => []

def Allowed (W : World) (pm : List Key) (mm : List TVal) (f : Addr) (e : TVal × TVal) : Prop :=
  e = (.atom aBuiltins, .atom aBuiltinsVal) ∨ ∃ s ∈ globSrc W f, KVRel W pm mm s e

def ConRel (W : World) (pm : List Key) (mm : List TVal) : Con → TCon → Prop
  | .list, .list => True
  | .dict, .dict => True
  | .set, .set => True
  | .red f as, .red f' as' => VRel W pm mm f f' ∧ All2 (VRel W pm mm) as as'
  | .newobj f as, .newobj f' as' => VRel W pm mm f f' ∧ All2 (VRel W pm mm) as as'
  | _, _ => False

def StRel (W : World) (pm : List Key) (mm : List TVal) (st : Option St) (a : List (TVal × TVal))
    (s : Option TVal) : Prop :=
  match st with
  | none => a = [] ∧ s = none
  | some (.opaque v) => a = [] ∧ ∃ tv, s = some tv ∧ VRel W pm mm v tv
  | some (.attrs es) => All2 (KVRel W pm mm) es a ∧ s = none

def GlobRel (W : World) (pm : List Key) (mm : List TVal) (x : Addr) (g : Globs) (tg : TVal) : Prop :=
  match g with
  | .byRef v => VRel W pm mm v tg
  | .copied _ _ => ∃ (i t : Nat), pm[i]? = some (.globs x) ∧ mm[i]? = some (.ref t) ∧ tg = .ref t

/-- the items of a loaded object: those of the original, once unless the object can be reached from its constructor arguments -/
def LitsRel (W : World) (pm : List Key) (mm : List TVal) (x : Addr) (lits : List Val) (l : List TVal) : Prop :=
  ∃ n, All2 (VRel W pm mm) (times (n + 1) lits) l ∧ (¬ SelfMade W x → n = 0)

theorem LitsRel.once {W pm mm x lits l} (h : All2 (VRel W pm mm) lits l) : LitsRel W pm mm x lits l :=
  ⟨0, by simpa [times] using h, fun _ => rfl⟩

theorem LitsRel.mono {W pm mm pm' mm' x lits l} (hp : pm <+: pm') (hm : mm <+: mm') (h : LitsRel W pm mm x lits l) :
    LitsRel W pm' mm' x lits l := ⟨h.choose, All2.mono (fun _ _ h => VRel.mono hp hm h) h.choose_spec.1, h.choose_spec.2⟩

/-- the loaded object `o` is a complete copy of the source object at `x` -/
def ObjRel (W : World) (pm : List Key) (mm : List TVal) (x : Addr) (so : SObj) (o : TObj) : Prop :=
  match so, o with
  | .leaf _, _ => False
  | .tuple es, .tuple ts => All2 (VRel W pm mm) es ts
  | .fset es, .fset ts => All2 (VRel W pm mm) es ts
  | .node con lits dits st, .node tcon l d a s =>
    ConRel W pm mm con tcon ∧ LitsRel W pm mm x lits l ∧ All2 (KVRel W pm mm) dits d ∧
    StRel W pm mm st a s
  | .cell none, .cell c => c = none
  | .cell (some v), .cell c => ∃ tv, c = some tv ∧ VRel W pm mm v tv
  | .func code g name df cl attrs slots, .func code' g' name' df' cl' attrs' slots' =>
    VRel W pm mm code code' ∧ GlobRel W pm mm x g g' ∧ VRel W pm mm name name' ∧ VRel W pm mm df df' ∧
    VRel W pm mm cl cl' ∧ All2 (KVRel W pm mm) attrs attrs' ∧ All2 (KVRel W pm mm) slots slots'
  | .cls mt name bases dict qual, .cls mt' name' bases' dict' qual' =>
    VRel W pm mm mt mt' ∧ VRel W pm mm name name' ∧ VRel W pm mm bases bases' ∧
    All2 (KVRel W pm mm) dict dict' ∧ ∃ tq, qual' = some tq ∧ VRel W pm mm qual tq
  | _, _ => False

/-- what holds of a memoised object at all times, also while it waits for a deferred step -/
def ShapeObj (W : World) (pm : List Key) (mm : List TVal) (heap : List TObj) (x : Addr) (tv : TVal) : Prop :=
  match W.H x with
  | .leaf a => tv = .atom a
  | .cell _ => ∃ t c, tv = .ref t ∧ heap[t]? = some (.cell c)
  | .cls mt name bases dict _ => ∃ t mt' name' bases' dict' qual', tv = .ref t ∧
      heap[t]? = some (.cls mt' name' bases' dict' qual') ∧
      VRel W pm mm mt mt' ∧ VRel W pm mm name name' ∧ VRel W pm mm bases bases' ∧
      All2 (KVRel W pm mm) dict dict'
  | _ => ∃ t, tv = .ref t

def Shape (W : World) (pm : List Key) (mm : List TVal) (heap : List TObj) (k : Key) (tv : TVal) : Prop :=
  match k with
  | .anon => True
  | .obj x => NamedV W x tv ∨ ShapeObj W pm mm heap x tv
  | .globs f => ∃ t es, tv = .ref t ∧ heap[t]? = some (.node .dict [] es [] none) ∧
      ∀ e ∈ es, Allowed W pm mm f e

/-- the memoised object is complete -/
def Good (W : World) (pm : List Key) (mm : List TVal) (heap : List TObj) (k : Key) (tv : TVal) : Prop :=
  match k with
  | .anon => True
  | .obj x => (NamedV W x tv ∨ ∃ a, W.H x = .leaf a ∧ tv = .atom a) ∨
      ∃ t o, tv = .ref t ∧ heap[t]? = some o ∧ ObjRel W pm mm x (W.H x) o
  | .globs f => ∃ t es, tv = .ref t ∧ heap[t]? = some (.node .dict [] es [] none) ∧
      (∀ s ∈ globCopy W f, ∃ tk tv, VRel W pm mm s.1 tk ∧ VRel W pm mm s.2 tv ∧ lookupD es tk = some tv)

section mono
variable {W : World} {pm pm' : List Key} {mm mm' : List TVal}

theorem ConRel.mono (hp : pm <+: pm') (hm : mm <+: mm') {c tc} (h : ConRel W pm mm c tc) :
    ConRel W pm' mm' c tc := by
  cases c <;> cases tc <;> simp only [ConRel] at h ⊢
  all_goals exact ⟨h.1.mono hp hm, h.2.mono fun _ _ x => x.mono hp hm⟩

theorem StRel.mono (hp : pm <+: pm') (hm : mm <+: mm') {st a s} (h : StRel W pm mm st a s) :
    StRel W pm' mm' st a s := by
  unfold StRel at *
  split
  · exact h
  · obtain ⟨h1, tv, h2, h3⟩ := h; exact ⟨h1, tv, h2, h3.mono hp hm⟩
  · exact ⟨h.1.mono fun _ _ x => x.mono hp hm, h.2⟩

theorem GlobRel.mono (hp : pm <+: pm') (hm : mm <+: mm') {x g tg} (h : GlobRel W pm mm x g tg) :
    GlobRel W pm' mm' x g tg := by
  unfold GlobRel at *
  split
  · exact h.mono hp hm
  · obtain ⟨i, t, h1, h2, h3⟩ := h; exact ⟨i, t, prefix_get hp h1, prefix_get hm h2, h3⟩

theorem ObjRel.mono (hp : pm <+: pm') (hm : mm <+: mm') {x so o} (h : ObjRel W pm mm x so o) :
    ObjRel W pm' mm' x so o := by
  have kv : ∀ {a b}, All2 (KVRel W pm mm) a b → All2 (KVRel W pm' mm') a b :=
    fun h => h.mono fun _ _ x => x.mono hp hm
  have vs : ∀ {a b}, All2 (VRel W pm mm) a b → All2 (VRel W pm' mm') a b :=
    fun h => h.mono fun _ _ x => x.mono hp hm
  unfold ObjRel at *
  split
  all_goals simp only at h
  · exact vs h
  · exact vs h
  · exact ⟨h.1.mono hp hm, ⟨h.2.1.choose, vs h.2.1.choose_spec.1, h.2.1.choose_spec.2⟩, kv h.2.2.1, h.2.2.2.mono hp hm⟩
  · exact h
  · obtain ⟨tv, h1, h2⟩ := h; exact ⟨tv, h1, h2.mono hp hm⟩
  · obtain ⟨h1, h2, h3, h4, h5, h6, h7⟩ := h
    exact ⟨h1.mono hp hm, h2.mono hp hm, h3.mono hp hm, h4.mono hp hm, h5.mono hp hm, kv h6, kv h7⟩
  · obtain ⟨h1, h2, h3, h4, tq, h5, h6⟩ := h
    exact ⟨h1.mono hp hm, h2.mono hp hm, h3.mono hp hm, kv h4, tq, h5, h6.mono hp hm⟩

theorem Allowed.mono (hp : pm <+: pm') (hm : mm <+: mm') {f e} (h : Allowed W pm mm f e) :
    Allowed W pm' mm' f e := by
  rcases h with h | ⟨s, hs, h⟩
  · exact .inl h
  · exact .inr ⟨s, hs, h.mono hp hm⟩

/-- the part of the heap a memo value points to is the same -/
def SameAt (heap heap' : List TObj) (tv : TVal) : Prop :=
  ∀ t, tv = .ref t → heap'[t]? = heap[t]?

theorem Shape.mono (hp : pm <+: pm') (hm : mm <+: mm') {heap heap' k tv} (hs : SameAt heap heap' tv)
    (h : Shape W pm mm heap k tv) : Shape W pm' mm' heap' k tv := by
  cases k with
  | anon => trivial
  | obj x =>
    rcases h with h | h
    · exact .inl h
    refine .inr ?_
    simp only [ShapeObj] at h ⊢
    split
    · rename_i a hx; rw [hx] at h; exact h
    · rename_i c hx; rw [hx] at h
      obtain ⟨t, c, h1, h2⟩ := h
      exact ⟨t, c, h1, by rw [hs t h1]; exact h2⟩
    · rename_i mt n b d q hx; rw [hx] at h
      obtain ⟨t, mt', n', b', d', q', h1, h2, h3, h4, h5, h6⟩ := h
      exact ⟨t, mt', n', b', d', q', h1, by rw [hs t h1]; exact h2, h3.mono hp hm, h4.mono hp hm,
        h5.mono hp hm, h6.mono fun _ _ x => x.mono hp hm⟩
    · rename_i h1 h2 h3
      split at h
      · rename_i hx; exact absurd hx (h1 _)
      · rename_i hx; exact absurd hx (h2 _)
      · rename_i hx; exact absurd hx (h3 _ _ _ _ _)
      · exact h
  | globs f =>
    obtain ⟨t, es, h1, h2, h3⟩ := h
    exact ⟨t, es, h1, by rw [hs t h1]; exact h2, fun e he => (h3 e he).mono hp hm⟩

theorem Good.mono (hp : pm <+: pm') (hm : mm <+: mm') {heap heap' k tv} (hs : SameAt heap heap' tv)
    (h : Good W pm mm heap k tv) : Good W pm' mm' heap' k tv := by
  cases k with
  | anon => trivial
  | obj x =>
    rcases h with h | ⟨t, o, h1, h2, h3⟩
    · exact .inl h
    · exact .inr ⟨t, o, h1, by rw [hs t h1]; exact h2, h3.mono hp hm⟩
  | globs f =>
    obtain ⟨t, es, h1, h2, h3⟩ := h
    refine ⟨t, es, h1, by rw [hs t h1]; exact h2, fun e he => ?_⟩
    obtain ⟨tk, tv, h4, h5, h6⟩ := h3 e he
    exact ⟨tk, tv, h4.mono hp hm, h5.mono hp hm, h6⟩

end mono

/-! ### the invariant -/

/-- a name leads to one object -/
def NamesOK (W : World) : Prop :=
  (∀ x a, W.byName x = some a → ∀ y, W.H y ≠ .leaf a ∧ .atom a ∉ refs (W.H y)) ∧
    ∀ x y a, W.byName x = some a → W.byName y = some a → x = y

/-- entries of an object of the graph, with different keys -/
def KOK (W : World) (es : List (Val × Val)) : Prop := KNodup W es ∧ ∃ y, ∀ v ∈ kvVals es, v ∈ refs (W.H y)

/-- a value found in the graph is not the bare name of an object saved by value -/
theorem NamesOK.plain {W} (h : NamesOK W) {x a y v} (hx : W.byName x = some a) (hv : v ∈ refs (W.H y)) : res W v ≠ .inl a := by
  intro e
  cases v with
  | atom b => simp only [res, Sum.inl.injEq] at e; subst e; exact (h.1 x b hx y).2 hv
  | ref z =>
    simp only [res] at e
    cases hz : W.H z <;> rw [hz] at e <;> simp at e
    subst e
    exact (h.1 x _ hx z).1 hz

def target : Red → Key
  | .setCell c _ => .obj c
  | .setQual c _ => .obj c
  | .setItems f _ => .globs f
  | .setDead f _ => .obj f

/-- a deferred reduction is the right one for its target -/
def RedStatic (W : World) : Red → Prop
  | .setCell c v => W.H c = .cell (some v)
  | .setQual c q => ∃ mt n b d, W.H c = .cls mt n b d q
  | .setItems f copy => ∃ co init n df cl a s, W.H f = .func co (.copied init copy) n df cl a s
  | .setDead f copy => copy ≠ [] ∧ isFC (W.H f)

def Pending (post : List (Addr × List Red)) (k : Key) : Prop :=
  ∃ e ∈ post, ∃ r ∈ e.2, target r = k

def OnStack (post : List (Addr × List Red)) (x : Addr) : Prop := ∃ e ∈ post, e.1 = x

theorem onStack_iff (p : P) (x : Addr) : p.onStack x = true ↔ OnStack p.post x := by
  simp [P.onStack, OnStack, List.any_eq_true]

/-- the simulation invariant; objects in `opn` are not (yet) claimed to be complete -/
structure Inv (W : World) (opn : Key → Prop) (p : P) (mm : List TVal) (heap : List TObj) : Prop where
  len : p.memo.length = mm.length
  nodup : ∀ (i j : Nat) k, p.memo[i]? = some k → p.memo[j]? = some k → k ≠ .anon → i = j
  inj : ∀ (i j t : Nat), mm[i]? = some (.ref t) → mm[j]? = some (.ref t) → i = j
  bound : ∀ (i t : Nat), mm[i]? = some (.ref t) → t < heap.length
  shape : ∀ (i : Nat) k tv, p.memo[i]? = some k → mm[i]? = some tv → Shape W p.memo mm heap k tv
  good : ∀ (i : Nat) k tv, p.memo[i]? = some k → mm[i]? = some tv → ¬ opn k → ¬ Pending p.post k →
    Good W p.memo mm heap k tv
  reds : ∀ e ∈ p.post, ∀ r ∈ e.2, RedStatic W r
  kind : ∀ e ∈ p.post, isFC (W.H e.1)
  opnOK : ∀ x, opn (.obj x) → .obj x ∈ p.memo ∨ OnStack p.post x
  globsOK : ∀ f, .globs f ∈ p.memo → .obj f ∈ p.memo ∨ OnStack p.post f
  named : ∀ (i : Nat) x a, p.memo[i]? = some (.obj x) → mm[i]? = some (.atom a) → isFC (W.H x) →
    OnStack p.post x ∨ Circular W x
  names : NamesOK W

/-- the lists only get longer, and what is added concerns objects memoised in between -/
def PostExt (pm pm' : List Key) : List (Addr × List Red) → List (Addr × List Red) → Prop :=
  All2 fun a b => a.1 = b.1 ∧ ∃ new, b.2 = a.2 ++ new ∧ ∀ r ∈ new, target r ∈ pm' ∧ target r ∉ pm

theorem PostExt.refl (pm pm') (l : List (Addr × List Red)) : PostExt pm pm' l l := by
  induction l with
  | nil => exact .nil
  | cons a l ih => exact .cons ⟨rfl, [], by simp, by simp⟩ ih

theorem PostExt.trans {pm pm1 pm2 a b c} (h1 : pm <+: pm1) (h2 : pm1 <+: pm2)
    (h : PostExt pm pm1 a b) (h' : PostExt pm1 pm2 b c) : PostExt pm pm2 a c := by
  unfold PostExt at *
  induction h generalizing c with
  | nil => cases h'; exact .nil
  | cons r _ ih => cases h' with
    | cons r' h' =>
      obtain ⟨e, n, hn, hm⟩ := r
      obtain ⟨e', n', hn', hm'⟩ := r'
      refine .cons ⟨e.trans e', n ++ n', by rw [hn', hn, List.append_assoc], ?_⟩ (ih h')
      intro r hr
      rcases List.mem_append.1 hr with hr | hr
      · exact ⟨prefix_mem h2 (hm r hr).1, (hm r hr).2⟩
      · exact ⟨(hm' r hr).1, fun x => (hm' r hr).2 (prefix_mem h1 x)⟩

theorem PostExt.onStack {pm pm' a b} (h : PostExt pm pm' a b) (x) : OnStack a x ↔ OnStack b x := by
  constructor
  · rintro ⟨e, he, rfl⟩
    obtain ⟨e', he', h1, _⟩ := h.mem_left he
    exact ⟨e', he', h1.symm⟩
  · rintro ⟨e, he, rfl⟩
    obtain ⟨e', he', h1, _⟩ := h.mem_right he
    exact ⟨e', he', h1⟩

theorem PostExt.pending {pm pm' a b} (h : PostExt pm pm' a b) {k} (hp : Pending a k) : Pending b k := by
  obtain ⟨e, he, r, hr, ht⟩ := hp
  obtain ⟨e', he', _, n, h2, _⟩ := h.mem_left he
  exact ⟨e', he', r, by rw [h2]; simp [hr], ht⟩

def OfAddr (k : Key) (y : Addr) : Prop := k = .obj y ∨ k = .globs y

/-- What a save leaves untouched; objects in `but` may be modified, keys of on-stack objects in `ex` may be
memoised. -/
structure ExtBut (but : Nat → Prop) (ex : Key → Prop) (p : P) (mm : List TVal) (heap : List TObj)
    (p' : P) (mm' : List TVal) (heap' : List TObj) : Prop where
  hlen : heap.length ≤ heap'.length
  heapEq : ∀ i, i < heap.length → ¬ but i → heap'[i]? = heap[i]?
  mmPre : mm <+: mm'
  pmPre : p.memo <+: p'.memo
  fresh : ∀ (i t : Nat), mm.length ≤ i → mm'[i]? = some (.ref t) → heap.length ≤ t
  post : PostExt p.memo p'.memo p.post p'.post
  stay : ∀ y k, OnStack p.post y → OfAddr k y → ¬ ex k → k ∈ p'.memo → k ∈ p.memo ∨
    (k = .obj y ∧ ∃ (i : Nat) (a : Atom), p'.memo[i]? = some k ∧ mm'[i]? = some (.atom a))

theorem ExtBut.refl (but ex) (p mm heap) : ExtBut but ex p mm heap p mm heap :=
  ⟨Nat.le_refl _, fun _ _ _ => rfl, List.prefix_rfl, List.prefix_rfl, fun i t h1 h2 => by
    have := (List.getElem?_eq_some_iff.1 h2).1; omega, PostExt.refl _ _ _, fun _ _ _ _ _ h => .inl h⟩

theorem ExtBut.trans {but ex p mm heap p1 mm1 heap1 p2 mm2 heap2}
    (h : ExtBut but ex p mm heap p1 mm1 heap1) (h' : ExtBut but ex p1 mm1 heap1 p2 mm2 heap2) :
    ExtBut but ex p mm heap p2 mm2 heap2 := by
  refine ⟨Nat.le_trans h.hlen h'.hlen, ?_, h.mmPre.trans h'.mmPre, h.pmPre.trans h'.pmPre, ?_,
    h.post.trans h.pmPre h'.pmPre h'.post, ?_⟩
  · intro i hi hb
    rw [h'.heapEq i (Nat.lt_of_lt_of_le hi h.hlen) hb, h.heapEq i hi hb]
  · intro i t hi ht
    by_cases hlt : i < mm1.length
    · have : mm1[i]? = some (.ref t) := by rw [← prefix_get_lt h'.mmPre hlt]; exact ht
      exact h.fresh i t hi this
    · exact Nat.le_trans h.hlen (h'.fresh i t (Nat.le_of_not_lt hlt) ht)
  · intro y k hy hk hx hm
    rcases h'.stay y k ((h.post.onStack y).1 hy) hk hx hm with g | g
    · rcases h.stay y k hy hk hx g with g | ⟨g, i, a, g1, g2⟩
      · exact .inl g
      · exact .inr ⟨g, i, a, prefix_get h'.pmPre g1, prefix_get h'.mmPre g2⟩
    · exact .inr g

theorem ExtBut.weaken {but but' ex ex' p mm heap p1 mm1 heap1} (h : ExtBut but ex p mm heap p1 mm1 heap1)
    (hw : ∀ i, i < heap.length → but i → but' i) (hx : ∀ y k, OnStack p.post y → OfAddr k y → ex k → ex' k) :
    ExtBut but' ex' p mm heap p1 mm1 heap1 :=
  ⟨h.hlen, fun i hi hb => h.heapEq i hi (fun x => hb (hw i hi x)), h.mmPre, h.pmPre, h.fresh, h.post,
   fun y k hy hk he => h.stay y k hy hk (fun x => he (hx y k hy hk x))⟩

/-- allocation -/
theorem ExtBut.alloc (but ex) (p : P) (mm : List TVal) (heap : List TObj) (o : TObj) :
    ExtBut but ex p mm heap p mm (heap ++ [o]) :=
  ⟨by simp, fun i hi _ => by rw [List.getElem?_append_left hi], List.prefix_rfl, List.prefix_rfl,
   fun i t h1 h2 => by have := (List.getElem?_eq_some_iff.1 h2).1; omega, PostExt.refl _ _ _,
   fun _ _ _ _ _ h => .inl h⟩

/-- assignment to an object that may be modified -/
theorem ExtBut.set {but : Nat → Prop} (ex) (p : P) (mm : List TVal) (heap : List TObj) (t : Nat) (o : TObj)
    (ht : t < heap.length → but t) :
    ExtBut but ex p mm heap p mm (heap.set t o) :=
  ⟨by simp, fun i hi hb => by
      rw [List.getElem?_set_ne]; intro e; subst e; exact hb (ht hi), List.prefix_rfl, List.prefix_rfl,
   fun i t h1 h2 => by have := (List.getElem?_eq_some_iff.1 h2).1; omega, PostExt.refl _ _ _,
   fun _ _ _ _ _ h => .inl h⟩

/-- memoisation of an object allocated since `heap0`, or an atom -/
theorem ExtBut.memo {but ex} {p : P} {mm : List TVal} {heap : List TObj} {k : Key} {tv : TVal}
    (heap0 : List TObj) (hl : heap0.length ≤ heap.length)
    (hh : ∀ i, i < heap0.length → ¬ but i → heap[i]? = heap0[i]?)
    (hf : ∀ t, tv = .ref t → heap0.length ≤ t)
    (hk : ∀ y, OnStack p.post y → OfAddr k y → ex k ∨
      (k = .obj y ∧ p.memo.length = mm.length ∧ ∃ a, tv = .atom a)) :
    ExtBut but ex p mm heap0 { p with memo := p.memo ++ [k] } (mm ++ [tv]) heap := by
  refine ⟨hl, hh, prefix_append_one _ _, prefix_append_one _ _, ?_, PostExt.refl _ _ _, ?_⟩
  · intro i t h1 h2
    rw [List.getElem?_append_right h1] at h2
    have : tv = .ref t := by
      cases h : i - mm.length with
      | zero => rw [h] at h2; simpa using h2
      | succ n => rw [h] at h2; simp at h2
    exact hf t this
  · intro y k' hy hk' hx hm
    simp only [List.mem_append, List.mem_singleton] at hm
    rcases hm with h | h
    · exact .inl h
    · subst h
      rcases hk y hy hk' with g | ⟨g, hl, a, ha⟩
      · exact absurd g hx
      · exact .inr ⟨g, p.memo.length, a, by simp, by simp [hl, ha]⟩

/-! ### updating the invariant -/

section upd
variable {W : World} {opn : Key → Prop} {p : P} {mm : List TVal} {heap : List TObj}

theorem Inv.alloc (h : Inv W opn p mm heap) (o : TObj) : Inv W opn p mm (heap ++ [o]) := by
  have same : ∀ (i : Nat) tv, mm[i]? = some tv → SameAt heap (heap ++ [o]) tv := by
    intro i tv hi t ht; subst ht
    rw [List.getElem?_append_left (h.bound i t hi)]
  exact ⟨h.len, h.nodup, h.inj, fun i t hi => by have := h.bound i t hi; simp; omega,
    fun i k tv h1 h2 => (h.shape i k tv h1 h2).mono List.prefix_rfl List.prefix_rfl (same i tv h2),
    fun i k tv h1 h2 h3 h4 => (h.good i k tv h1 h2 h3 h4).mono List.prefix_rfl List.prefix_rfl (same i tv h2),
    h.reds, h.kind, h.opnOK, h.globsOK, h.named, h.names⟩

/-- assigning an object; its keys must keep their shape and be complete or not claimed to be -/
theorem Inv.set (h : Inv W opn p mm heap) (t : Nat) (o : TObj)
    (hk : ∀ (i : Nat) k, mm[i]? = some (.ref t) → p.memo[i]? = some k →
      Shape W p.memo mm (heap.set t o) k (.ref t) ∧
      (opn k ∨ Pending p.post k ∨ Good W p.memo mm (heap.set t o) k (.ref t))) :
    Inv W opn p mm (heap.set t o) := by
  have same : ∀ (i : Nat) tv, mm[i]? = some tv → tv ≠ .ref t → SameAt heap (heap.set t o) tv := by
    intro i tv hi hne t' ht; subst ht
    rw [List.getElem?_set_ne]; intro e; subst e; exact hne rfl
  refine ⟨h.len, h.nodup, h.inj, fun i t hi => by have := h.bound i t hi; simpa using this, ?_, ?_,
    h.reds, h.kind, h.opnOK, h.globsOK, h.named, h.names⟩
  · intro i k tv h1 h2
    by_cases e : tv = .ref t
    · subst e; exact (hk i k h2 h1).1
    · exact (h.shape i k tv h1 h2).mono List.prefix_rfl List.prefix_rfl (same i tv h2 e)
  · intro i k tv h1 h2 h3 h4
    by_cases e : tv = .ref t
    · subst e
      rcases (hk i k h2 h1).2 with h5 | h5 | h5
      · exact absurd h5 h3
      · exact absurd h5 h4
      · exact h5
    · exact (h.good i k tv h1 h2 h3 h4).mono List.prefix_rfl List.prefix_rfl (same i tv h2 e)

/-- memoising a new object -/
theorem Inv.memo (h : Inv W opn p mm heap) (k : Key) (tv : TVal)
    (hnew : k ≠ .anon → k ∉ p.memo)
    (hfresh : ∀ t, tv = .ref t → t < heap.length ∧ ∀ i : Nat, mm[i]? ≠ some (.ref t))
    (hshape : Shape W (p.memo ++ [k]) (mm ++ [tv]) heap k tv)
    (hgood : opn k ∨ Pending p.post k ∨ Good W (p.memo ++ [k]) (mm ++ [tv]) heap k tv)
    (hglob : ∀ f, k = .globs f → .obj f ∈ p.memo ∨ OnStack p.post f)
    (hnam : ∀ x a, k = .obj x → tv = .atom a → isFC (W.H x) → OnStack p.post x ∨ Circular W x := by
      intro _ _ _ h; cases h) :
    Inv W opn { p with memo := p.memo ++ [k] } (mm ++ [tv]) heap := by
  have hp : p.memo <+: p.memo ++ [k] := prefix_append_one _ _
  have hm : mm <+: mm ++ [tv] := prefix_append_one _ _
  have getp : ∀ (i : Nat) k', (p.memo ++ [k])[i]? = some k' →
      (p.memo[i]? = some k') ∨ (i = p.memo.length ∧ k' = k) := by
    intro i k' hi
    by_cases hlt : i < p.memo.length
    · rw [List.getElem?_append_left hlt] at hi; exact .inl hi
    · rw [List.getElem?_append_right (Nat.le_of_not_lt hlt)] at hi
      cases e : i - p.memo.length with
      | zero => rw [e] at hi; simp at hi; exact .inr ⟨by omega, hi.symm⟩
      | succ n => rw [e] at hi; simp at hi
  have getm : ∀ (i : Nat) v, (mm ++ [tv])[i]? = some v →
      (mm[i]? = some v) ∨ (i = mm.length ∧ v = tv) := by
    intro i k' hi
    by_cases hlt : i < mm.length
    · rw [List.getElem?_append_left hlt] at hi; exact .inl hi
    · rw [List.getElem?_append_right (Nat.le_of_not_lt hlt)] at hi
      cases e : i - mm.length with
      | zero => rw [e] at hi; simp at hi; exact .inr ⟨by omega, hi.symm⟩
      | succ n => rw [e] at hi; simp at hi
  have old : ∀ (i : Nat) k' v, (p.memo ++ [k])[i]? = some k' → (mm ++ [tv])[i]? = some v →
      (p.memo[i]? = some k' ∧ mm[i]? = some v) ∨ (k' = k ∧ v = tv) := by
    intro i k' v h1 h2
    rcases getp i k' h1 with a | ⟨a, a'⟩ <;> rcases getm i v h2 with b | ⟨b, b'⟩
    · exact .inl ⟨a, b⟩
    · have := (List.getElem?_eq_some_iff.1 a).1; have := h.len; omega
    · have := (List.getElem?_eq_some_iff.1 b).1; have := h.len; omega
    · exact .inr ⟨a', b'⟩
  refine ⟨by simp [h.len], ?_, ?_, ?_, ?_, ?_, h.reds, h.kind, ?_, ?_, ?_, h.names⟩
  · intro i j k' h1 h2 hne
    rcases getp i k' h1 with a | ⟨a, a'⟩ <;> rcases getp j k' h2 with b | ⟨b, b'⟩
    · exact h.nodup i j k' a b hne
    · subst b'; exact absurd (List.mem_of_getElem? a) (hnew hne)
    · subst a'; exact absurd (List.mem_of_getElem? b) (hnew hne)
    · omega
  · intro i j t h1 h2
    rcases getm i _ h1 with a | ⟨a, a'⟩ <;> rcases getm j _ h2 with b | ⟨b, b'⟩
    · exact h.inj i j t a b
    · exact absurd a ((hfresh t b'.symm).2 i)
    · exact absurd b ((hfresh t a'.symm).2 j)
    · omega
  · intro i t h1
    rcases getm i _ h1 with a | ⟨a, a'⟩
    · exact h.bound i t a
    · exact (hfresh t a'.symm).1
  · intro i k' v h1 h2
    rcases old i k' v h1 h2 with ⟨a, b⟩ | ⟨rfl, rfl⟩
    · exact (h.shape i k' v a b).mono hp hm (fun _ _ => rfl)
    · exact hshape
  · intro i k' v h1 h2 h3 h4
    rcases old i k' v h1 h2 with ⟨a, b⟩ | ⟨rfl, rfl⟩
    · exact (h.good i k' v a b h3 h4).mono hp hm (fun _ _ => rfl)
    · rcases hgood with g | g | g
      · exact absurd g h3
      · exact absurd g h4
      · exact g
  · intro x hx
    exact (h.opnOK x hx).imp (fun x => by simp [x]) id
  · intro f hf
    simp only [List.mem_append, List.mem_singleton] at hf
    rcases hf with hf | hf
    · exact (h.globsOK f hf).imp (fun x => by simp [x]) id
    · exact (hglob f hf.symm).imp (fun x => by simp [x]) id
  · intro i x a h1 h2 h3
    rcases old i _ _ h1 h2 with ⟨a1, b1⟩ | ⟨a1, b1⟩
    · exact h.named i x a a1 b1 h3
    · exact hnam x a a1.symm b1.symm h3

/-- changing the set of objects not claimed to be complete -/
theorem Inv.reopen (h : Inv W opn p mm heap) (opn' : Key → Prop)
    (hgood : ∀ (i : Nat) k tv, p.memo[i]? = some k → mm[i]? = some tv → ¬ opn' k → opn k → ¬ Pending p.post k →
      Good W p.memo mm heap k tv)
    (hopn : ∀ x, opn' (.obj x) → .obj x ∈ p.memo ∨ OnStack p.post x) :
    Inv W opn' p mm heap := by
  refine ⟨h.len, h.nodup, h.inj, h.bound, h.shape, ?_, h.reds, h.kind, hopn, h.globsOK, h.named, h.names⟩
  intro i k tv h1 h2 h3 h4
  by_cases ho : opn k
  · exact hgood i k tv h1 h2 h3 ho h4
  · exact h.good i k tv h1 h2 ho h4

/-- changing the `_postproc` lists -/
theorem Inv.repost (h : Inv W opn p mm heap) (post' : List (Addr × List Red))
    (hp : ∀ (i : Nat) k tv, p.memo[i]? = some k → mm[i]? = some tv → Pending p.post k → Pending post' k ∨ opn k ∨
      Good W p.memo mm heap k tv)
    (hr : ∀ e ∈ post', ∀ r ∈ e.2, RedStatic W r) (hk : ∀ e ∈ post', isFC (W.H e.1))
    (ho : ∀ x, OnStack p.post x → OnStack post' x) : Inv W opn { p with post := post' } mm heap := by
  refine ⟨h.len, h.nodup, h.inj, h.bound, h.shape, ?_, hr, hk, ?_, ?_, ?_, h.names⟩
  · intro i k tv h1 h2 h3 h4
    by_cases hpe : Pending p.post k
    · rcases hp i k tv h1 h2 hpe with g | g | g
      · exact absurd g h4
      · exact absurd g h3
      · exact g
    · exact h.good i k tv h1 h2 h3 hpe
  · exact fun x hx => (h.opnOK x hx).imp id (ho x)
  · exact fun x hx => (h.globsOK x hx).imp id (ho x)
  · exact fun i x a h1 h2 h3 => (h.named i x a h1 h2 h3).imp (ho x) id

end upd

end Verif.Core
