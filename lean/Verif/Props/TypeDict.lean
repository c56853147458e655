import Verif.Model.TypeDict
/-! C39: a class pickled by value resolves attributes as the original does. -/
set_option linter.unusedSimpArgs false
set_option linter.unusedSectionVars false
namespace Verif.TypeDict
variable {L : Type} (layout : List L → Option (List String) → Option (L × Bool × Bool))

/-! ### specification: the class hierarchies Python programs build -/

/-- the class a value is a descriptor of -/
def Val.owner? : Val → Option CId
  | .slotD o _ => some o
  | .dictD o => some o
  | .weakD o => some o
  | _ => none

/-- class attributes assigned and deleted after the class statement; `type` refuses most of the excluded names -/
def setAttr (W : World L) (c : CId) (n : String) (v : Option Val) : World L :=
  W.modify c fun k => { k with dict := match v with | some v => k.dict.set n v | none => k.dict.del n }

/-- Classes exist because of `object`, class statements, and assignments to class attributes. -/
inductive Reach : World L → Prop
  | object (d : Dict String Val) (lay : L) (hw : d.WF) : Reach [⟨"object", [], [0], d, lay⟩]
  | stmt {W W' : World L} (name : String) (bases : List CId) (ns : Dict String Val) :
      Reach W → bases ≠ [] → ns.WF → (∀ n v o, ns.get n = some v → v.owner? = some o → o < W.length) →
      typeNew layout W name bases ns = .ok W' → Reach W'
  | assign {W : World L} (c : CId) (n : String) (v : Val) : Reach W → c ≠ 0 →
      n ∉ ["__slots__", "__dict__", "__weakref__", "__qualname__"] → Reach (setAttr W c n (some v))
  | delete {W : World L} (c : CId) (n : String) : Reach W → c ≠ 0 →
      n ∉ ["__slots__", "__dict__", "__weakref__", "__qualname__", "__doc__", "__module__"] →
      Reach (setAttr W c n none)

/-- among the classes `cs`, the first that has `n` binds it to `v` -/
def FirstIn (W : World L) (cs : List CId) (n : String) (v : Val) : Prop :=
  ∃ pre b post, cs = pre ++ b :: post ∧ (dictOf W b).get n = some v ∧ ∀ b' ∈ pre, (dictOf W b').get n = none

/-- `n` is bound in `k` to the very object that the first of `k`'s direct bases having `n` has, a function or
another object with a `__qualname__`. -/
def Redundant (W : World L) (k : CId) (n : String) (v : Val) : Prop :=
  (dictOf W k).get n = some v ∧ v.hasQualname = true ∧ FirstIn W (basesOf W k) n v

/-- the classes a value mentions -/
def Val.mentions : Val → List CId
  | .slotD o _ => [o]
  | .dictD o => [o]
  | .weakD o => [o]
  | .orig l => l.flatMap fun b => match b with | .cls c => [c] | .alias _ es => es
  | _ => []

/-- What is asked of a class saved by value. -/
structure Ordinary (W : World L) (c : CId) : Prop where
  /-- no private slot names -/
  noPrivate : ∀ s ∈ (slotNames (dictOf W c)).getD [], mangle (nameOf W c) s = s
  /-- no slot has the name of a special class attribute -/
  noSpecial : ∀ s ∈ (slotNames (dictOf W c)).getD [],
    s ∉ ["__module__", "__doc__", "__hash__", "__eq__", "__qualname__", "__slots__", "__orig_bases__"]
  /-- slots were not overwritten by class attributes later -/
  slotKept : ∀ s ∈ (slotNames (dictOf W c)).getD [], s ≠ "__dict__" → s ≠ "__weakref__" →
    (dictOf W c).get s = some (.slotD c s)
  /-- the class body defines no `__dict__` or `__weakref__` of its own -/
  dictOwn : ∀ v, (dictOf W c).get "__dict__" = some v → v = .dictD c
  weakOwn : ∀ v, (dictOf W c).get "__weakref__" = some v → v = .weakD c
  /-- a class with `__eq__` has a `__hash__` of its own, not one taken from a base -/
  hashOwn : (dictOf W c).get "__eq__" ≠ none →
    ∃ v, (dictOf W c).get "__hash__" = some v ∧ ¬ Redundant W c "__hash__" v
  /-- `__module__` and `__doc__` are not functions -/
  plainDoc : ∀ v, (dictOf W c).get "__doc__" = some v → v.hasQualname = false
  plainModule : ∀ v, (dictOf W c).get "__module__" = some v → v.hasQualname = false
  /-- generic bases are the class's own -/
  origOwn : ∀ v, lookup W c "__orig_bases__" = some v →
    ∃ l, (dictOf W c).get "__orig_bases__" = some (.orig l) ∧ resolve l = basesOf W c

/-- The classes in `order` are the ones saved by value: each once, after those of its bases that are also saved by
value, never `object`; the ancestors of a class kept by reference, and classes mentioned in
its dict, are kept by reference. -/
structure Saved (W : World L) (order : List CId) : Prop where
  nodup : order.Nodup
  known : ∀ c ∈ order, c < W.length
  notObject : 0 ∉ order
  basesFirst : ∀ pre c post, order = pre ++ c :: post → ∀ b ∈ basesOf W c, b ∈ order → b ∈ pre
  byRef : ∀ r, r ∉ order → ∀ k ∈ mroOf W r, k ∉ order
  byRefVals : ∀ r, r ∉ order → ∀ n v, (dictOf W r).get n = some v → ∀ k ∈ v.mentions, k ∉ order
  ordinary : ∀ c ∈ order, Ordinary W c

/-- Wherever a class repeats an object of its direct bases, the rest of the method resolution order (the class's own
and its subclasses') gives that object too. -/
def Stable (W : World L) (order : List CId) : Prop :=
  ∀ c ∈ order, ∀ pre k t, mroOf W c = pre ++ k :: t → k ∈ order → ∀ n v, Redundant W k n v → FirstIn W t n v

/-! ### dictionaries -/

theorem get_setDefault (d : Dict String Val) (a : String) (v : Val) (x : String) :
    (setDefault d a v).get x = if x = a then some ((d.get a).getD v) else d.get x := by
  unfold setDefault
  cases h : d.get a with
  | none => simp only [Dict.get_set, Option.getD_none]
  | some w =>
    by_cases hx : x = a
    · subst hx; simp [h]
    · simp [hx]

theorem wf_setDefault {d : Dict String Val} (h : d.WF) (a : String) (v : Val) : (setDefault d a v).WF := by
  unfold setDefault
  cases d.get a with
  | none => exact Dict.wf_set h a v
  | some _ => exact h

theorem get_addIf (b : Bool) (d : Dict String Val) (a : String) (v : Val) (x : String) :
    (addIf b d a v).get x = if x = a ∧ b = true then some ((d.get a).getD v) else d.get x := by
  cases b <;> simp [addIf, get_setDefault]

theorem wf_addIf (b : Bool) {d : Dict String Val} (h : d.WF) (a : String) (v : Val) : (addIf b d a v).WF := by
  cases b
  · exact h
  · exact wf_setDefault h a v

theorem get_popAll (ns : List String) (d : Dict String Val) (x : String) :
    (popAll d ns).get x = if x ∈ ns then none else d.get x := by
  induction ns generalizing d with
  | nil => simp [popAll]
  | cons a ns ih =>
    have : popAll d (a :: ns) = popAll (d.del a) ns := rfl
    rw [this, ih, Dict.get_del]
    by_cases h1 : x ∈ ns
    · simp [h1]
    · by_cases h2 : x = a <;> simp [h1, h2]

theorem wf_popAll (ns : List String) {d : Dict String Val} (h : d.WF) : (popAll d ns).WF := by
  induction ns generalizing d with
  | nil => exact h
  | cons a ns ih => exact ih (Dict.wf_del h a)

theorem get_mapDict (r : CId → CId) (d : Dict String Val) (x : String) :
    (mapDict r d).get x = (d.get x).map (Val.map r) := by
  induction d with
  | nil => rfl
  | cons p d ih =>
    obtain ⟨k, v⟩ := p
    simp only [mapDict, List.map_cons, Dict.get] at ih ⊢
    by_cases h : k = x
    · simp [h]
    · simp only [h, if_false]; exact ih

theorem slotNames_mapDict (r : CId → CId) (d : Dict String Val) : slotNames (mapDict r d) = slotNames d := by
  unfold slotNames
  rw [get_mapDict]
  cases d.get "__slots__" with
  | none => rfl
  | some v => cases v <;> rfl

theorem get_inherited (W : World L) (hw : ∀ c, (dictOf W c).WF) (bs : List CId) (n : String) :
    (inheritedDict W bs).get n = bs.findSome? fun b => (dictOf W b).get n := by
  have key : ∀ (l : List CId) (d : Dict String Val),
      (l.foldl (fun d b => d.update (dictOf W b)) d).get n =
        ((l.reverse.findSome? fun b => (dictOf W b).get n).or (d.get n)) := by
    intro l
    induction l with
    | nil => intro d; simp
    | cons b l ih =>
      intro d
      rw [List.foldl_cons, ih, Dict.get_update _ _ (hw b), List.reverse_cons, List.findSome?_append]
      cases (l.reverse.findSome? fun b => (dictOf W b).get n) with
      | some v => simp
      | none => cases h : (dictOf W b).get n <;> simp [h]
  have gen : Dict.get (bs.reverse.foldl (fun (d : Dict String Val) b => d.update (dictOf W b)) []) n =
      bs.findSome? fun b => (dictOf W b).get n := by
    rw [key]; simp
  unfold inheritedDict
  match bs with
  | [b] => simp
  | [] => rfl
  | a :: b :: l => exact gen

theorem mem_toRemove (inh d : Dict String Val) (hd : d.WF) (n : String) :
    n ∈ toRemove inh d ↔ ∃ v, d.get n = some v ∧ inh.get n = some v ∧ v.hasQualname = true := by
  unfold toRemove
  rw [List.mem_filterMap]
  constructor
  · rintro ⟨⟨k, v⟩, hm, h⟩
    cases hi : inh.get k with
    | none => simp [hi] at h
    | some bv =>
      simp only [hi] at h
      by_cases hc : v = bv ∧ v.hasQualname = true
      · rw [if_pos hc] at h
        cases h
        exact ⟨v, Dict.get_of_mem hd hm, by rw [hi, hc.1], hc.2⟩
      · simp [hc] at h
  · rintro ⟨v, h1, h2, h3⟩
    exact ⟨(n, v), Dict.mem_of_get h1, by simp [h2, h3]⟩

theorem findSome_first (W : World L) (bs : List CId) (n : String) (v : Val) :
    (bs.findSome? fun b => (dictOf W b).get n) = some v ↔ FirstIn W bs n v := by
  unfold FirstIn
  rw [List.findSome?_eq_some_iff]

/-! ### C3 commutes with renaming -/

theorem all_congr_mem {α : Type} {l : List α} {p q : α → Bool} (h : ∀ x ∈ l, p x = q x) : l.all p = l.all q := by
  induction l with
  | nil => rfl
  | cons a l ih => simp only [List.all_cons]; rw [h a (by simp), ih fun x hx => h x (by simp [hx])]

section merge
variable (f : CId → CId) (P : CId → Prop) (hf : ∀ a b, P a → P b → f a = f b → a = b)
include hf

theorem contains_map (l : List CId) (h : CId) (hl : ∀ x ∈ l, P x) (hh : P h) :
    (l.map f).contains (f h) = l.contains h := by
  rw [Bool.eq_iff_iff, List.contains_iff_mem, List.contains_iff_mem, List.mem_map]
  constructor
  · rintro ⟨a, ha, e⟩; rwa [hf a h (hl a ha) hh e] at ha
  · intro h; exact ⟨_, h, rfl⟩

theorem candidate_map (all seqs : List (List CId)) (ha : ∀ s ∈ all, ∀ x ∈ s, P x) (hs : ∀ s ∈ seqs, ∀ x ∈ s, P x) :
    candidate (all.map (List.map f)) (seqs.map (List.map f)) = (candidate all seqs).map f := by
  induction seqs with
  | nil => rfl
  | cons s rest ih =>
    have ih := ih fun s hs' => hs s (by simp [hs'])
    cases s with
    | nil => simpa [candidate] using ih
    | cons h t =>
      have hh : P h := hs (h :: t) (by simp) h (by simp)
      have : ((all.map (List.map f)).all fun s => ! s.tail.contains (f h)) = all.all fun s => ! s.tail.contains h := by
        rw [List.all_map]
        apply all_congr_mem
        intro s hs'
        simp only [Function.comp]
        rw [← List.map_tail, contains_map f P hf _ _ (fun x hx => ha s hs' x (List.mem_of_mem_tail hx)) hh]
      simp only [List.map_cons, candidate, this]
      split
      · rfl
      · exact ih

theorem dropHead_map (h : CId) (s : List CId) (hs : ∀ x ∈ s, P x) (hh : P h) :
    dropHead (f h) (s.map f) = (dropHead h s).map f := by
  cases s with
  | nil => simp [dropHead]
  | cons a s =>
    unfold dropHead
    by_cases e : a = h
    · subst e; simp
    · have : f a ≠ f h := fun e' => e (hf a h (hs a (by simp)) hh e')
      simp [e, this]

theorem candidate_mem (all seqs : List (List CId)) (h : CId) (e : candidate all seqs = some h) :
    ∃ s ∈ seqs, h ∈ s := by
  induction seqs with
  | nil => simp [candidate] at e
  | cons s rest ih =>
    cases s with
    | nil => obtain ⟨s, a, b⟩ := ih (by simpa [candidate] using e); exact ⟨s, by simp [a], b⟩
    | cons a t =>
      simp only [candidate] at e
      split at e
      · cases e; exact ⟨h :: t, by simp, by simp⟩
      · obtain ⟨s, a, b⟩ := ih e; exact ⟨s, by simp [a], b⟩

omit hf in
theorem mem_dropHead {h x : CId} {s : List CId} (hx : x ∈ dropHead h s) : x ∈ s := by
  unfold dropHead at hx
  split at hx
  · exact List.mem_of_mem_tail hx
  · exact hx

theorem merge_map (n : Nat) (seqs : List (List CId)) (hs : ∀ s ∈ seqs, ∀ x ∈ s, P x) :
    merge n (seqs.map (List.map f)) = (merge n seqs).map (List.map f) := by
  have hempty : ∀ seqs : List (List CId),
      ((seqs.map (List.map f)).all (·.isEmpty)) = seqs.all (·.isEmpty) := by
    intro seqs
    rw [List.all_map]
    apply all_congr_mem
    intro s _
    cases s <;> rfl
  induction n generalizing seqs with
  | zero => simp only [merge, hempty]; split <;> rfl
  | succ n ih =>
    simp only [merge, hempty]
    by_cases he : (seqs.all (·.isEmpty)) = true
    · simp [he]
    · simp only [he, if_false, candidate_map f P hf seqs seqs hs hs]
      cases hc : candidate seqs seqs with
      | none => rfl
      | some h =>
        obtain ⟨s, hs1, hs2⟩ := candidate_mem f P hf _ _ _ hc
        have hh : P h := hs s hs1 h hs2
        have : (seqs.map (List.map f)).map (dropHead (f h)) = (seqs.map (dropHead h)).map (List.map f) := by
          rw [List.map_map, List.map_map]
          apply List.map_congr_left
          intro s hs'
          exact dropHead_map f P hf h s (hs s hs') hh
        have hs'' : ∀ s ∈ seqs.map (dropHead h), ∀ x ∈ s, P x := by
          intro s hs' x hx
          obtain ⟨s0, h0, rfl⟩ := List.mem_map.1 hs'
          exact hs s0 h0 x (mem_dropHead hx)
        simp only [Option.map_some, this, ih _ hs'']
        cases merge n (seqs.map (dropHead h)) <;> rfl

end merge

theorem merge_mem (n : Nat) (seqs : List (List CId)) (l : List CId) (h : merge n seqs = some l) :
    ∀ x ∈ l, ∃ s ∈ seqs, x ∈ s := by
  induction n generalizing seqs l with
  | zero =>
    simp only [merge] at h
    split at h
    · cases h; simp
    · cases h
  | succ n ih =>
    simp only [merge] at h
    split at h
    · cases h; simp
    · cases hc : candidate seqs seqs with
      | none => rw [hc] at h; cases h
      | some a =>
        simp only [hc] at h
        cases hm : merge n (seqs.map (dropHead a)) with
        | none => simp [hm] at h
        | some t =>
          simp only [hm, Option.some.injEq] at h
          subst h
          intro x hx
          rcases List.mem_cons.1 hx with rfl | hx
          · exact candidate_mem id (fun _ => True) (fun _ _ _ _ h => h) _ _ _ hc
          · obtain ⟨s, hs, hx⟩ := ih _ _ hm x hx
            obtain ⟨s0, h0, rfl⟩ := List.mem_map.1 hs
            exact ⟨s0, h0, mem_dropHead hx⟩

/-! ### what holds of every reachable world -/

def layOf (W : World L) (c : CId) : Option L := match W[c]? with | some k => some k.lay | none => none

theorem mapM_lay (W : World L) (bs : List CId) (ks : List (Cls L)) (h : bs.mapM (fun b => W[b]?) = some ks) :
    bs.mapM (layOf W) = some (ks.map (·.lay)) := by
  induction bs generalizing ks with
  | nil => simp at h; subst h; rfl
  | cons b bs ih =>
    simp only [List.mapM_cons, Option.bind_eq_bind] at h ⊢
    cases hb : W[b]? with
    | none => simp [hb] at h
    | some k =>
      cases hr : bs.mapM (fun b => W[b]?) with
      | none => simp [hb, hr] at h
      | some r =>
        simp [hb, hr] at h
        subst h
        rw [ih r hr]
        simp [layOf, hb]

theorem mapM_cls (W : World L) (bs : List CId) (ls : List L) (h : bs.mapM (layOf W) = some ls) :
    ∃ ks, bs.mapM (fun b => W[b]?) = some ks ∧ ks.map (·.lay) = ls := by
  induction bs generalizing ls with
  | nil => simp at h; subst h; exact ⟨[], rfl, rfl⟩
  | cons b bs ih =>
    simp only [List.mapM_cons, Option.bind_eq_bind] at h ⊢
    cases hb : W[b]? with
    | none => simp [layOf, hb] at h
    | some k =>
      cases hr : bs.mapM (layOf W) with
      | none => simp [layOf, hb] at h; simp [hr] at h
      | some r =>
        obtain ⟨ks, h1, h2⟩ := ih r hr
        have hl : layOf W b = some k.lay := by simp [layOf, hb]
        rw [hl, hr] at h
        simp at h
        subst h
        exact ⟨k :: ks, by simp [h1], by simp [h2]⟩

theorem mapM_lt (W : World L) (bs : List CId) (ls : List L) (h : bs.mapM (layOf W) = some ls) :
    ∀ b ∈ bs, b < W.length := by
  induction bs generalizing ls with
  | nil => simp
  | cons b bs ih =>
    simp only [List.mapM_cons, Option.bind_eq_bind] at h
    cases hb : W[b]? with
    | none => simp [layOf, hb] at h
    | some k =>
      cases hr : bs.mapM (layOf W) with
      | none => simp [layOf, hb] at h; simp [hr] at h
      | some r =>
        intro x hx
        rcases List.mem_cons.1 hx with rfl | hx
        · exact (List.getElem?_eq_some_iff.1 hb).1
        · exact ih r hr x hx

theorem mapM_congr {α β : Type} {f g : α → Option β} (l : List α) (h : ∀ x ∈ l, f x = g x) : l.mapM f = l.mapM g := by
  induction l with
  | nil => rfl
  | cons a l ih =>
    rw [List.mapM_cons, List.mapM_cons, h a (by simp), ih fun x hx => h x (by simp [hx])]

theorem computeMro_congr (W W' : World L) (c : CId) (bs : List CId) (h : ∀ b ∈ bs, mroOf W' b = mroOf W b) :
    computeMro W' c bs = computeMro W c bs := by
  have hm : bs.map (mroOf W') = bs.map (mroOf W) := List.map_congr_left h
  unfold computeMro
  match bs with
  | [b] => simp [h b (by simp)]
  | [] => rfl
  | a :: b :: l => simp only [hm]

structure Inv (W : World L) : Prop where
  root : 0 < W.length ∧ mroOf W 0 = [0] ∧ basesOf W 0 = []
  wf : ∀ c, (dictOf W c).WF
  bases : ∀ c, c < W.length → c ≠ 0 → basesOf W c ≠ [] ∧ ∀ b ∈ basesOf W c, b < c
  mro : ∀ c, c < W.length → c ≠ 0 → computeMro W c (basesOf W c) = some (mroOf W c)
  lay : ∀ c, c < W.length → c ≠ 0 → ∃ ls lay ad aw, (basesOf W c).mapM (layOf W) = some ls ∧ layOf W c = some lay ∧
    layout ls (slotNames (dictOf W c)) = some (lay, ad, aw) ∧
    ((dictOf W c).get "__dict__" = none → ad = false) ∧ ((dictOf W c).get "__dict__" = some (.dictD c) → ad = true) ∧
    ((dictOf W c).get "__weakref__" = none → aw = false) ∧ ((dictOf W c).get "__weakref__" = some (.weakD c) → aw = true)
  names : ∀ c, c < W.length → c ≠ 0 → (dictOf W c).get "__doc__" ≠ none ∧ (dictOf W c).get "__module__" ≠ none ∧
    ((∀ s ∈ memberSlots (dictOf W c), mangle (nameOf W c) s ≠ "__qualname__") → (dictOf W c).get "__qualname__" = none)
  head : ∀ c, c < W.length → ∃ t, mroOf W c = c :: t
  lt : ∀ c, ∀ k ∈ mroOf W c, k < W.length

theorem computeMro_head (W : World L) (c : CId) (bs l : List CId) (h : computeMro W c bs = some l) :
    ∃ t, l = c :: t := by
  unfold computeMro at h
  split at h
  · cases h; exact ⟨_, rfl⟩
  · split at h
    · cases h
    · split at h
      · cases h
      · cases h; exact ⟨_, rfl⟩

theorem computeMro_lt (W : World L) (c : CId) (bs l : List CId) (h : computeMro W c bs = some l) (m : Nat)
    (hc : c < m) (hb : ∀ b ∈ bs, b < m) (hm : ∀ b ∈ bs, ∀ k ∈ mroOf W b, k < m) : ∀ k ∈ l, k < m := by
  unfold computeMro at h
  split at h
  · cases h
    intro k hk
    rcases List.mem_cons.1 hk with rfl | hk
    · exact hc
    · exact hm _ (by simp) k hk
  · split at h
    · cases h
    · split at h
      · cases h
      · rename_i t ht
        cases h
        intro k hk
        rcases List.mem_cons.1 hk with rfl | hk
        · exact hc
        · obtain ⟨s, hs, hk⟩ := merge_mem _ _ _ ht k hk
          rcases List.mem_append.1 hs with hs | hs
          · obtain ⟨b, hb', rfl⟩ := List.mem_map.1 hs
            exact hm b hb' k hk
          · rw [List.mem_singleton] at hs; subst hs; exact hb k hk

/-! the dict `type()` makes -/

theorem get_foldSlots (c : CId) (name : String) (ss : List String) (d : Dict String Val) (n : String) :
    (ss.foldl (fun (d : Dict String Val) s => d.set (mangle name s) (.slotD c (mangle name s))) d).get n =
      if n ∈ ss.map (mangle name) then some (.slotD c n) else d.get n := by
  induction ss generalizing d with
  | nil => simp
  | cons s ss ih =>
    rw [List.foldl_cons, ih, Dict.get_set]
    by_cases h1 : n ∈ ss.map (mangle name)
    · simp [h1]
    · by_cases h2 : n = mangle name s
      · subst h2; simp
      · simp [h1, h2]

theorem wf_foldSlots (c : CId) (name : String) (ss : List String) {d : Dict String Val} (h : d.WF) :
    (ss.foldl (fun (d : Dict String Val) s => d.set (mangle name s) (.slotD c (mangle name s))) d).WF := by
  induction ss generalizing d with
  | nil => exact h
  | cons s ss ih => exact ih (Dict.wf_set h _ _)

/-- the namespace with slots, before the other entries are added -/
def slotted (c : CId) (name : String) (ns : Dict String Val) (n : String) : Option Val :=
  if n ∈ (memberSlots ns).map (mangle name) then some (.slotD c n)
  else if n = "__module__" then some ((ns.get "__module__").getD (.obj 0 false))
  else if n = "__qualname__" then none else ns.get n

theorem get_fillDict (c : CId) (name : String) (ad aw : Bool) (ns : Dict String Val) (n : String) :
    (fillDict c name ad aw ns).get n =
      match slotted c name ns n with
      | some v => some v
      | none =>
        if n = "__dict__" ∧ ad = true then some (.dictD c)
        else if n = "__weakref__" ∧ aw = true then some (.weakD c)
        else if n = "__doc__" then some .none_
        else if n = "__hash__" ∧ slotted c name ns "__eq__" ≠ none then some .none_
        else none := by
  have h0 : ∀ n, ((memberSlots ns).foldl (fun (d : Dict String Val) s => d.set (mangle name s) (.slotD c (mangle name s)))
      (setDefault (ns.del "__qualname__") "__module__" (.obj 0 false))).get n = slotted c name ns n := by
    intro n
    rw [get_foldSlots, get_setDefault, Dict.get_del, Dict.get_del]
    unfold slotted
    by_cases hm : n = "__module__"
    · subst hm; simp
    · simp [hm]
  unfold fillDict
  simp only []
  generalize (memberSlots ns).foldl (fun (d : Dict String Val) s => d.set (mangle name s) (.slotD c (mangle name s)))
      (setDefault (ns.del "__qualname__") "__module__" (.obj 0 false)) = D at h0 ⊢
  simp only [get_addIf, get_setDefault, h0]
  by_cases hd : n = "__doc__"
  · subst hd; cases slotted c name ns "__doc__" <;> simp
  by_cases hw : n = "__weakref__"
  · subst hw; cases slotted c name ns "__weakref__" <;> cases aw <;> simp
  by_cases hx : n = "__dict__"
  · subst hx; cases slotted c name ns "__dict__" <;> cases ad <;> simp
  by_cases hh : n = "__hash__"
  · subst hh
    cases slotted c name ns "__eq__" <;> cases slotted c name ns "__hash__" <;> simp
  · simp only [hd, hw, hx, hh, false_and, if_false]
    cases slotted c name ns n <;> rfl

theorem wf_fillDict (c : CId) (name : String) (ad aw : Bool) {ns : Dict String Val} (h : ns.WF) :
    (fillDict c name ad aw ns).WF := by
  have h1 := wf_foldSlots c name (memberSlots ns)
    (wf_setDefault (Dict.wf_del h "__qualname__") "__module__" (.obj 0 false))
  unfold fillDict
  exact wf_addIf _ (wf_setDefault (wf_addIf _ (wf_addIf _ h1 _ _) _ _) _ _) _ _

theorem typeNew_iff (W W' : World L) (name : String) (bases : List CId) (ns : Dict String Val) :
    typeNew layout W name bases ns = .ok W' ↔ ∃ ls mro lay ad aw, bases.mapM (layOf W) = some ls ∧
      computeMro W W.length bases = some mro ∧ layout ls (slotNames ns) = some (lay, ad, aw) ∧
      (∀ s ∈ memberSlots ns, ns.get (mangle name s) = none) ∧
      W' = W ++ [⟨name, bases, mro, fillDict W.length name ad aw ns, lay⟩] := by
  unfold typeNew
  constructor
  · intro h
    cases hb : bases.mapM (fun b => W[b]?) with
    | none => simp [hb] at h
    | some bs =>
      simp only [hb] at h
      cases hm : computeMro W W.length bases with
      | none => simp [hm] at h
      | some mro =>
        simp only [hm] at h
        cases hl : layout (bs.map (·.lay)) (slotNames ns) with
        | none => simp [hl] at h
        | some p =>
          obtain ⟨lay, ad, aw⟩ := p
          simp only [hl] at h
          split at h
          · cases h
          · rename_i hany
            cases h
            refine ⟨_, mro, lay, ad, aw, mapM_lay W bases bs hb, rfl, hl, ?_, rfl⟩
            intro s hs
            cases hg : ns.get (mangle name s) with
            | none => rfl
            | some v => exact absurd (List.any_eq_true.2 ⟨s, hs, by simp [hg]⟩) hany
  · rintro ⟨ls, mro, lay, ad, aw, h1, h2, h3, h4, rfl⟩
    obtain ⟨bs, hb, rfl⟩ := mapM_cls W bases ls h1
    simp only [hb, h2, h3]
    rw [if_neg]
    intro hany
    obtain ⟨s, hs, hg⟩ := List.any_eq_true.1 hany
    simp [h4 s hs] at hg

section append
variable (W : World L) (k : Cls L)

theorem getElem?_append_lt {c : CId} (h : c < W.length) : (W ++ [k])[c]? = W[c]? :=
  List.getElem?_append_left h

theorem mroOf_append {c : CId} (h : c < W.length) : mroOf (W ++ [k]) c = mroOf W c := by
  simp only [mroOf, getElem?_append_lt W k h]
theorem dictOf_append {c : CId} (h : c < W.length) : dictOf (W ++ [k]) c = dictOf W c := by
  simp only [dictOf, getElem?_append_lt W k h]
theorem basesOf_append {c : CId} (h : c < W.length) : basesOf (W ++ [k]) c = basesOf W c := by
  simp only [basesOf, getElem?_append_lt W k h]
theorem nameOf_append {c : CId} (h : c < W.length) : nameOf (W ++ [k]) c = nameOf W c := by
  simp only [nameOf, getElem?_append_lt W k h]
theorem layOf_append {c : CId} (h : c < W.length) : layOf (W ++ [k]) c = layOf W c := by
  simp only [layOf, getElem?_append_lt W k h]

theorem getElem?_append_self : (W ++ [k])[W.length]? = some k := by simp
theorem mroOf_self : mroOf (W ++ [k]) W.length = k.mro := by simp [mroOf]
theorem dictOf_self : dictOf (W ++ [k]) W.length = k.dict := by simp [dictOf]
theorem basesOf_self : basesOf (W ++ [k]) W.length = k.bases := by simp [basesOf]
theorem nameOf_self : nameOf (W ++ [k]) W.length = k.name := by simp [nameOf]
theorem layOf_self : layOf (W ++ [k]) W.length = some k.lay := by simp [layOf]
end append

theorem get_slots_fill (c : CId) (name : String) (ad aw : Bool) (ns : Dict String Val)
    (hc : ∀ s ∈ memberSlots ns, ns.get (mangle name s) = none) :
    slotNames (fillDict c name ad aw ns) = slotNames ns := by
  unfold slotNames
  rw [get_fillDict]
  have : slotted c name ns "__slots__" = ns.get "__slots__" := by
    unfold slotted
    split
    · rename_i h
      obtain ⟨s, hs, he⟩ := List.mem_map.1 h
      have h1 := hc s hs
      rw [he] at h1
      simp [memberSlots, slotNames, h1] at hs
    · simp
  rw [this]
  cases ns.get "__slots__" with
  | some v => rfl
  | none => simp

theorem Inv.stmt {W W' : World L} (hi : Inv layout W) (name : String) (bases : List CId) (ns : Dict String Val)
    (hb : bases ≠ []) (hw : ns.WF) (ho : ∀ n v o, ns.get n = some v → v.owner? = some o → o < W.length)
    (h : typeNew layout W name bases ns = .ok W') : Inv layout W' := by
  obtain ⟨ls, mro, lay, ad, aw, h1, h2, h3, h4, rfl⟩ := (typeNew_iff layout W W' name bases ns).1 h
  have hlt := mapM_lt W bases ls h1
  have hslots := get_slots_fill W.length name ad aw ns h4
  generalize hk : (⟨name, bases, mro, fillDict W.length name ad aw ns, lay⟩ : Cls L) = k
  have hlen : (W ++ [k]).length = W.length + 1 := by simp
  have split : ∀ c, c < (W ++ [k]).length → c < W.length ∨ c = W.length := by
    intro c h; rw [hlen] at h; omega
  have hn : ∀ c, ¬ c < W.length → c ≠ W.length → (W ++ [k])[c]? = none := by
    intro c hc hc'
    rw [List.getElem?_eq_none_iff, hlen]; omega
  constructor
  · refine ⟨by rw [hlen]; omega, ?_, ?_⟩
    · rw [mroOf_append W k hi.root.1]; exact hi.root.2.1
    · rw [basesOf_append W k hi.root.1]; exact hi.root.2.2
  · intro c
    by_cases hc : c < W.length
    · rw [dictOf_append W k hc]; exact hi.wf c
    · by_cases hc' : c = W.length
      · subst hc'; rw [dictOf_self, ← hk]; exact wf_fillDict _ _ _ _ hw
      · simp only [dictOf, hn c hc hc']; exact List.nodup_nil
  · intro c hc hc0
    rcases split c hc with hc | rfl
    · rw [basesOf_append W k hc]; exact hi.bases c hc hc0
    · rw [basesOf_self, ← hk]; exact ⟨hb, hlt⟩
  · intro c hc hc0
    rcases split c hc with hc | rfl
    · rw [basesOf_append W k hc, mroOf_append W k hc, ← hi.mro c hc hc0]
      apply computeMro_congr
      intro b hb
      exact mroOf_append W k (Nat.lt_trans ((hi.bases c hc hc0).2 b hb) hc)
    · rw [basesOf_self, mroOf_self, ← hk]
      simp only
      rw [← h2]
      apply computeMro_congr
      intro b hb
      exact mroOf_append W _ (hlt b hb)
  · intro c hc hc0
    rcases split c hc with hc | rfl
    · rw [basesOf_append W k hc, dictOf_append W k hc, layOf_append W k hc]
      obtain ⟨ls, lay, ad, aw, g1, g2⟩ := hi.lay c hc hc0
      refine ⟨ls, lay, ad, aw, ?_, g2⟩
      rw [← g1]
      apply mapM_congr
      intro b hb
      exact layOf_append W k (Nat.lt_trans ((hi.bases c hc hc0).2 b hb) hc)
    · rw [basesOf_self, dictOf_self, layOf_self, ← hk]
      simp only
      refine ⟨ls, lay, ad, aw, ?_, rfl, ?_, ?_⟩
      · rw [← h1]
        apply mapM_congr
        intro b hb
        exact layOf_append W _ (hlt b hb)
      · rw [hslots]; exact h3
      · have hs : ∀ n v, slotted W.length name ns n = some v → n ≠ "__module__" →
            v = .slotD W.length n ∨ ns.get n = some v := by
          intro n v h hn
          unfold slotted at h
          split at h
          · cases h; exact .inl rfl
          · by_cases hq : n = "__qualname__"
            · simp [hq] at h
            · simp only [hq, if_false] at h; exact .inr h
        rw [get_fillDict, get_fillDict]
        refine ⟨?_, ?_, ?_, ?_⟩
        · cases slotted W.length name ns "__dict__" <;> cases ad <;> simp
        · cases hv : slotted W.length name ns "__dict__" with
          | none => cases ad <;> simp
          | some v =>
            intro h
            cases h
            rcases hs _ _ hv (by decide) with h | h
            · cases h
            · exact absurd (ho _ _ _ h rfl) (Nat.lt_irrefl _)
        · cases slotted W.length name ns "__weakref__" <;> cases aw <;> simp
        · cases hv : slotted W.length name ns "__weakref__" with
          | none => cases aw <;> simp
          | some v =>
            intro h
            cases h
            rcases hs _ _ hv (by decide) with h | h
            · cases h
            · exact absurd (ho _ _ _ h rfl) (Nat.lt_irrefl _)
  · intro c hc hc0
    rcases split c hc with hc | rfl
    · rw [dictOf_append W k hc, nameOf_append W k hc]; exact hi.names c hc hc0
    · rw [dictOf_self, nameOf_self, ← hk]
      simp only [get_fillDict]
      refine ⟨?_, ?_, ?_⟩
      · cases slotted W.length name ns "__doc__" <;> simp
      · have : slotted W.length name ns "__module__" ≠ none := by unfold slotted; split <;> simp
        cases hv : slotted W.length name ns "__module__" with
        | none => exact absurd hv this
        | some v => simp
      · intro hq
        have : slotted W.length name ns "__qualname__" = none := by
          unfold slotted
          rw [if_neg]
          · simp
          · intro hm
            obtain ⟨s, hs, he⟩ := List.mem_map.1 hm
            refine hq s ?_ he
            unfold memberSlots at hs ⊢
            rw [hslots]; exact hs
        rw [this]; simp
  · intro c hc
    rcases split c hc with hc | rfl
    · rw [mroOf_append W k hc]; exact hi.head c hc
    · rw [mroOf_self, ← hk]; exact computeMro_head _ _ _ _ h2
  · intro c x hx
    by_cases hc : c < W.length
    · rw [mroOf_append W k hc] at hx
      rw [hlen]; exact Nat.lt_succ_of_lt (hi.lt c x hx)
    · by_cases hc' : c = W.length
      · subst hc'
        rw [mroOf_self, ← hk] at hx
        rw [hlen]
        exact computeMro_lt W _ _ _ h2 _ (Nat.lt_succ_self _) (fun b hb => Nat.lt_succ_of_lt (hlt b hb))
          (fun b _ x hx => Nat.lt_succ_of_lt (hi.lt b x hx)) x hx
      · simp only [mroOf, hn c hc hc', List.not_mem_nil] at hx

theorem getElem?_setAttr (W : World L) (c : CId) (n : String) (v : Option Val) (x : CId) :
    (setAttr W c n v)[x]? = if c = x then (W[x]?).map (fun k : Cls L =>
      { k with dict := match v with | some v => k.dict.set n v | none => k.dict.del n }) else W[x]? := by
  unfold setAttr
  rw [List.getElem?_modify]
  by_cases h : c = x <;> simp [h]

theorem Inv.setAttr {W : World L} (hi : Inv layout W) (c : CId) (n : String) (v : Option Val)
    (hn : n ∉ ["__slots__", "__dict__", "__weakref__", "__qualname__"])
    (hd : v = none → n ≠ "__doc__" ∧ n ≠ "__module__") : Inv layout (setAttr W c n v) := by
  have hlen : (TypeDict.setAttr W c n v).length = W.length := by simp [TypeDict.setAttr]
  have hmro : ∀ x, mroOf (TypeDict.setAttr W c n v) x = mroOf W x := by
    intro x
    simp only [mroOf, getElem?_setAttr]
    by_cases h : c = x
    · simp only [h, if_true]; cases W[x]? <;> rfl
    · simp [h]
  have hbases : ∀ x, basesOf (TypeDict.setAttr W c n v) x = basesOf W x := by
    intro x
    simp only [basesOf, getElem?_setAttr]
    by_cases h : c = x
    · simp only [h, if_true]; cases W[x]? <;> rfl
    · simp [h]
  have hname : ∀ x, nameOf (TypeDict.setAttr W c n v) x = nameOf W x := by
    intro x
    simp only [nameOf, getElem?_setAttr]
    by_cases h : c = x
    · simp only [h, if_true]; cases W[x]? <;> rfl
    · simp [h]
  have hlay : ∀ x, layOf (TypeDict.setAttr W c n v) x = layOf W x := by
    intro x
    simp only [layOf, getElem?_setAttr]
    by_cases h : c = x
    · simp only [h, if_true]; cases W[x]? <;> rfl
    · simp [h]
  have hdict : ∀ x m, m ≠ n → (dictOf (TypeDict.setAttr W c n v) x).get m = (dictOf W x).get m := by
    intro x m hm
    simp only [dictOf, getElem?_setAttr]
    by_cases h : c = x
    · simp only [h, if_true]
      cases W[x]? with
      | none => rfl
      | some k =>
        cases v with
        | none => simp only [Option.map_some]; exact Dict.get_del_ne _ hm
        | some v => simp only [Option.map_some]; exact Dict.get_set_ne _ _ hm
    · simp [h]
  have hslots : ∀ x, slotNames (dictOf (TypeDict.setAttr W c n v) x) = slotNames (dictOf W x) := by
    intro x
    unfold slotNames
    rw [hdict x "__slots__" (by rintro rfl; simp at hn)]
  have hmem : ∀ x, memberSlots (dictOf (TypeDict.setAttr W c n v) x) = memberSlots (dictOf W x) := by
    intro x; unfold memberSlots; rw [hslots]
  constructor
  · rw [hlen, hmro, hbases]; exact hi.root
  · intro x
    have := hi.wf x
    simp only [dictOf, getElem?_setAttr] at this ⊢
    by_cases h : c = x
    · simp only [h, if_true]
      cases hx : W[x]? with
      | none => simp only [hx] at this; exact this
      | some k =>
        simp only [hx] at this
        cases v with
        | none => exact Dict.wf_del this _
        | some v => exact Dict.wf_set this _ _
    · simpa [h] using this
  · intro x hx h0; rw [hlen] at hx; rw [hbases]; exact hi.bases x hx h0
  · intro x hx h0
    rw [hlen] at hx
    rw [hbases, hmro, ← hi.mro x hx h0]
    exact computeMro_congr _ _ _ _ fun b _ => hmro b
  · intro x hx h0
    rw [hlen] at hx
    rw [hbases, hslots, hdict x "__dict__" (by rintro rfl; simp at hn),
      hdict x "__weakref__" (by rintro rfl; simp at hn), hlay]
    obtain ⟨ls, lay, ad, aw, g1, g2⟩ := hi.lay x hx h0
    refine ⟨ls, lay, ad, aw, ?_, g2⟩
    rw [← g1]
    exact mapM_congr _ fun b _ => hlay b
  · intro x hx h0
    rw [hlen] at hx
    have hkeep : ∀ m, (v = none → n ≠ m) → (dictOf W x).get m ≠ none →
        (dictOf (TypeDict.setAttr W c n v) x).get m ≠ none := by
      intro m hm h
      by_cases e : m = n
      · subst e
        cases v with
        | none => exact absurd rfl (hm rfl)
        | some v =>
          by_cases hc : c = x
          · subst hc
            simp only [dictOf, getElem?_setAttr, if_true]
            simp only [dictOf] at h
            cases hx : W[c]? with
            | none => simp [hx] at h
            | some k => simp
          · simp only [dictOf, getElem?_setAttr, hc, if_false] at h ⊢
            exact h
      · rw [hdict x m e]; exact h
    rw [hmem, hname, hdict x "__qualname__" (by rintro rfl; simp at hn)]
    obtain ⟨a, b, g⟩ := hi.names x hx h0
    exact ⟨hkeep _ (fun h => (hd h).1) a, hkeep _ (fun h => (hd h).2) b, g⟩
  · intro x hx; rw [hlen] at hx; rw [hmro]; exact hi.head x hx
  · intro x y hy; rw [hmro] at hy; rw [hlen]; exact hi.lt x y hy

theorem Reach.inv {W : World L} (h : Reach layout W) : Inv layout W := by
  induction h with
  | object d lay hw =>
    have h1 : ∀ c : Nat, c < 1 → c = 0 := by omega
    constructor
    · exact ⟨by simp, rfl, rfl⟩
    · intro c
      cases c with
      | zero => exact hw
      | succ c => simp [dictOf]; exact List.nodup_nil
    · intro c hc h0; exact absurd (h1 c hc) h0
    · intro c hc h0; exact absurd (h1 c hc) h0
    · intro c hc h0; exact absurd (h1 c hc) h0
    · intro c hc h0; exact absurd (h1 c hc) h0
    · intro c hc; rw [h1 c hc]; exact ⟨[], rfl⟩
    · intro c x hx
      cases c with
      | zero => simp [mroOf] at hx; subst hx; simp
      | succ c => simp [mroOf] at hx
  | stmt name bases ns _ hb hw ho h ih => exact ih.stmt layout name bases ns hb hw ho h
  | assign c n v _ _ hn ih => exact ih.setAttr layout c n (some v) hn (by simp)
  | delete c n _ _ hn ih =>
    simp only [List.mem_cons, List.not_mem_nil, or_false, not_or] at hn
    exact ih.setAttr layout c n none (by simp [hn]) (fun _ => ⟨hn.2.2.2.2.1, hn.2.2.2.2.2⟩)

/-! ### the copy of one class -/

section copy
variable (W : World L)

theorem mem_removed (hw : ∀ c, (dictOf W c).WF) (c : CId) (n : String) :
    n ∈ toRemove (inheritedDict W (basesOf W c)) (dictOf W c) ↔ ∃ v, Redundant W c n v := by
  rw [mem_toRemove _ _ (hw c)]
  constructor
  · rintro ⟨v, h1, h2, h3⟩
    rw [get_inherited W hw, findSome_first] at h2
    exact ⟨v, h1, h3, h2⟩
  · rintro ⟨v, h1, h3, h2⟩
    refine ⟨v, h1, ?_, h3⟩
    rw [get_inherited W hw, findSome_first]; exact h2

theorem get_getTypedict (c : CId) (n : String) :
    (getTypedict W c).get n =
      if n = "__dict__" ∨ n = "__weakref__" ∨ n ∈ toRemove (inheritedDict W (basesOf W c)) (dictOf W c) then none
      else (dictOf W c).get n := by
  unfold getTypedict
  simp only [Dict.get_del, get_popAll]
  by_cases h1 : n = "__dict__" <;> by_cases h2 : n = "__weakref__" <;> simp [h1, h2]

theorem slotNames_getTypedict (hw : ∀ c, (dictOf W c).WF) (c : CId) :
    slotNames (getTypedict W c) = slotNames (dictOf W c) := by
  unfold slotNames
  rw [get_getTypedict]
  by_cases h : "__slots__" ∈ toRemove (inheritedDict W (basesOf W c)) (dictOf W c)
  · obtain ⟨v, h1, h2, h3⟩ := (mem_removed W hw c _).1 h
    simp only [h, or_true, if_true, h1]
    cases v <;> simp_all [Val.hasQualname]
  · simp [h]

theorem get_savedDict (hw : ∀ c, (dictOf W c).WF) (c : CId) (n : String) :
    (savedDict W c).get n =
      if n ∈ (slotNames (dictOf W c)).getD [] ∨ n = "__dict__" ∨ n = "__weakref__" ∨
        n ∈ toRemove (inheritedDict W (basesOf W c)) (dictOf W c) then none
      else (dictOf W c).get n := by
  unfold savedDict
  simp only [get_popAll, slotNames_getTypedict W hw, get_getTypedict]
  by_cases h : n ∈ (slotNames (dictOf W c)).getD [] <;> simp [h]

theorem slotNames_saved (hi : Inv layout W) (c : CId) (ho : Ordinary W c) :
    slotNames (savedDict W c) = slotNames (dictOf W c) := by
  have h0 : "__slots__" ∉ (slotNames (dictOf W c)).getD [] := fun h => by
    have := ho.noSpecial _ h; simp at this
  have hg : (savedDict W c).get "__slots__" = (getTypedict W c).get "__slots__" := by
    rw [get_savedDict W hi.wf, get_getTypedict]; simp [h0]
  rw [← slotNames_getTypedict W hi.wf c]
  simp only [slotNames, hg]

theorem memberSlots_mem {d : Dict String Val} {n : String} :
    n ∈ memberSlots d ↔ n ∈ (slotNames d).getD [] ∧ n ≠ "__dict__" ∧ n ≠ "__weakref__" := by
  unfold memberSlots
  rw [List.mem_filter]
  simp

/-- the dict of the copy: nothing new, and what is missing is redundant -/
theorem own_copy (hi : Inv layout W) (c : CId) (hc : c < W.length) (h0 : c ≠ 0) (ho : Ordinary W c) (r : CId → CId)
    (ns : Dict String Val) (hns : ∀ n, ns.get n = ((savedDict W c).get n).map (Val.map r)) (ad aw : Bool)
    (had1 : (dictOf W c).get "__dict__" = none → ad = false)
    (had2 : (dictOf W c).get "__dict__" = some (.dictD c) → ad = true)
    (haw1 : (dictOf W c).get "__weakref__" = none → aw = false)
    (haw2 : (dictOf W c).get "__weakref__" = some (.weakD c) → aw = true) (n : String) :
    ((dictOf W c).get n = none → (fillDict (r c) (nameOf W c) ad aw ns).get n = none) ∧
    (∀ v, (dictOf W c).get n = some v → (fillDict (r c) (nameOf W c) ad aw ns).get n = some (v.map r) ∨
      ((fillDict (r c) (nameOf W c) ad aw ns).get n = none ∧ Redundant W c n v)) := by
  have hslots : slotNames ns = slotNames (dictOf W c) := by
    rw [← slotNames_saved layout W hi c ho]
    unfold slotNames
    rw [hns]
    cases (savedDict W c).get "__slots__" with
    | none => rfl
    | some v => cases v <;> rfl
  have hmem : memberSlots ns = memberSlots (dictOf W c) := by unfold memberSlots; rw [hslots]
  have hmap : (memberSlots ns).map (mangle (nameOf W c)) = memberSlots (dictOf W c) := by
    rw [hmem]
    conv => rhs; rw [← List.map_id (memberSlots (dictOf W c))]
    apply List.map_congr_left
    intro s hs
    exact ho.noPrivate s (memberSlots_mem.1 hs).1
  obtain ⟨hdoc, hmod, hqual⟩ := hi.names c hc h0
  have hqual := hqual fun s hs e => by
    have hs := (memberSlots_mem.1 hs).1
    rw [ho.noPrivate s hs] at e
    have := ho.noSpecial s hs
    subst e
    simp at this
  rw [get_fillDict]
  have hsl : ∀ n, slotted (r c) (nameOf W c) ns n =
      if n ∈ memberSlots (dictOf W c) then some (.slotD (r c) n)
      else if n = "__module__" then some ((ns.get "__module__").getD (.obj 0 false))
      else if n = "__qualname__" then none else ns.get n := by
    intro n; unfold slotted; rw [hmap]
  by_cases hm : n ∈ memberSlots (dictOf W c)
  · obtain ⟨hm1, hm2, hm3⟩ := memberSlots_mem.1 hm
    have hk := ho.slotKept n hm1 hm2 hm3
    rw [hsl n]
    simp only [hm, if_true, hk]
    exact ⟨by simp, fun v hv => by cases hv; exact .inl rfl⟩
  have hspecial : n ∈ ["__module__", "__doc__", "__hash__", "__eq__", "__qualname__", "__slots__", "__orig_bases__"] →
      n ∉ (slotNames (dictOf W c)).getD [] := fun h h' => ho.noSpecial n h' h
  by_cases hmd : n = "__module__"
  · subst hmd
    cases hv : (dictOf W c).get "__module__" with
    | none => exact absurd hv hmod
    | some v =>
      have hq := ho.plainModule v hv
      have hr : "__module__" ∉ toRemove (inheritedDict W (basesOf W c)) (dictOf W c) := by
        rw [mem_removed W hi.wf]
        rintro ⟨w, hw1, hw2, _⟩
        rw [hv] at hw1; cases hw1; rw [hq] at hw2; cases hw2
      have hs : (savedDict W c).get "__module__" = some v := by
        rw [get_savedDict W hi.wf]
        simp [hspecial, hr, hv]
      rw [hsl]
      simp only [hm, if_false, if_true, hns, hs, Option.map_some, Option.getD_some]
      exact ⟨by simp, fun w hw => by cases hw; exact .inl rfl⟩
  by_cases hqn : n = "__qualname__"
  · subst hqn
    rw [hsl, hqual]
    simp [hm]
  by_cases hdi : n = "__dict__"
  · subst hdi
    have : ns.get "__dict__" = none := by rw [hns, get_savedDict W hi.wf]; simp
    rw [hsl]
    simp only [hm, hmd, hqn, if_false, this, true_and]
    refine ⟨fun h => ?_, fun v hv => ?_⟩
    · rw [had1 h]; simp
    · have hv' := ho.dictOwn v hv
      subst hv'
      rw [had2 hv]; simp [Val.map]
  by_cases hwe : n = "__weakref__"
  · subst hwe
    have : ns.get "__weakref__" = none := by rw [hns, get_savedDict W hi.wf]; simp
    rw [hsl]
    simp only [hm, hmd, hqn, hdi, if_false, this, true_and, false_and]
    refine ⟨fun h => ?_, fun v hv => ?_⟩
    · rw [haw1 h]; simp
    · have hv' := ho.weakOwn v hv
      subst hv'
      rw [haw2 hv]; simp [Val.map]
  have hns' : n ∉ (slotNames (dictOf W c)).getD [] := fun h => hm (memberSlots_mem.2 ⟨h, hdi, hwe⟩)
  have hsn : slotted (r c) (nameOf W c) ns n = ((savedDict W c).get n).map (Val.map r) := by
    rw [hsl]; simp [hm, hmd, hqn, hns]
  have heq : n = "__hash__" → slotted (r c) (nameOf W c) ns "__eq__" ≠ none → (dictOf W c).get "__eq__" ≠ none := by
    intro _ h1 h2
    apply h1
    have : "__eq__" ∉ memberSlots (dictOf W c) := fun h => by
      have := ho.noSpecial _ (memberSlots_mem.1 h).1; simp at this
    rw [hsl]
    simp only [this, if_false, show ("__eq__" : String) ≠ "__module__" by decide,
      show ("__eq__" : String) ≠ "__qualname__" by decide, hns, get_savedDict W hi.wf, h2]
    split <;> rfl
  rw [hsn, get_savedDict W hi.wf]
  by_cases hrem : n ∈ toRemove (inheritedDict W (basesOf W c)) (dictOf W c)
  · obtain ⟨v, hv⟩ := (mem_removed W hi.wf c n).1 hrem
    have hd : n ≠ "__doc__" := by
      rintro rfl
      have := ho.plainDoc v hv.1
      rw [hv.2.1] at this; cases this
    have hh : ¬ (n = "__hash__" ∧ slotted (r c) (nameOf W c) ns "__eq__" ≠ none) := by
      rintro ⟨rfl, h2⟩
      obtain ⟨w, hw1, hw2⟩ := ho.hashOwn (heq rfl h2)
      rw [hv.1] at hw1; cases hw1
      exact hw2 hv
    simp only [hrem, or_true, if_true, Option.map_none, hdi, hwe, hd, hh, false_and, if_false]
    refine ⟨fun _ => trivial, fun w hw => .inr ⟨trivial, ?_⟩⟩
    rw [hv.1] at hw; cases hw; exact hv
  · simp only [hns', hdi, hwe, hrem, or_self, if_false, false_and]
    refine ⟨fun h => ?_, fun v hv => ?_⟩
    · have hd : n ≠ "__doc__" := by rintro rfl; exact hdoc h
      have hh : ¬ (n = "__hash__" ∧ slotted (r c) (nameOf W c) ns "__eq__" ≠ none) := by
        rintro ⟨rfl, h2⟩
        obtain ⟨w, hw1, _⟩ := ho.hashOwn (heq rfl h2)
        rw [h] at hw1; cases hw1
      simp only [h, Option.map_none, hd, hh, if_false]
    · simp [hv]

end copy

/-! ### the copy of all classes -/

section all
variable (W : World L) (order : List CId)

theorem copyOf_notMem {c : CId} (h : c ∉ order) : copyOf W order c = c := by simp [copyOf, h]

theorem copyOf_at (hnd : order.Nodup) (pre : List CId) (c : CId) (post : List CId) (h : order = pre ++ c :: post) :
    copyOf W order c = W.length + pre.length := by
  have hm : c ∈ order := by rw [h]; simp
  have hp : c ∉ pre := by
    rw [h, List.nodup_append] at hnd
    intro hc
    exact hnd.2.2 c hc c (by simp) rfl
  simp only [copyOf, hm, if_true, h, List.idxOf_append, hp, if_false, List.idxOf_cons_self,
    Nat.zero_add]
  exact if_pos (by simp)

theorem copyOf_inj (a b : CId) (ha : a < W.length) (hb : b < W.length)
    (h : copyOf W order a = copyOf W order b) : a = b := by
  unfold copyOf at h
  by_cases h1 : a ∈ order <;> by_cases h2 : b ∈ order
  · simp only [h1, h2, if_true] at h
    have h3 : order.idxOf a = order.idxOf b := Nat.add_left_cancel h
    have e1 := List.getElem_idxOf (List.idxOf_lt_length_of_mem h1)
    have e2 := List.getElem_idxOf (List.idxOf_lt_length_of_mem h2)
    rw [← e1, ← e2]
    simp only [h3]
  · simp only [h1, h2, if_true, if_false] at h
    subst h
    exact absurd hb (Nat.not_lt.2 (Nat.le_add_right _ _))
  · simp only [h1, h2, if_true, if_false] at h
    subst h
    exact absurd ha (Nat.not_lt.2 (Nat.le_add_right _ _))
  · simpa only [h1, h2, if_false] using h

theorem computeMro_map (W W' : World L) (f : CId → CId) (P : CId → Prop)
    (hf : ∀ a b, P a → P b → f a = f b → a = b) (c : CId) (bs : List CId)
    (hm : ∀ b ∈ bs, mroOf W' (f b) = (mroOf W b).map f) (hb : ∀ b ∈ bs, P b)
    (hp : ∀ b ∈ bs, ∀ k ∈ mroOf W b, P k) :
    computeMro W' (f c) (bs.map f) = (computeMro W c bs).map (List.map f) := by
  have hnd : (bs.map f).Nodup ↔ bs.Nodup := by
    constructor
    · intro h
      rw [List.nodup_iff_pairwise_ne, List.pairwise_map] at h
      rw [List.nodup_iff_pairwise_ne]
      exact h.imp fun hne e => hne (by rw [e])
    · intro h
      rw [List.nodup_iff_pairwise_ne] at h ⊢
      rw [List.pairwise_map]
      refine List.Pairwise.imp_of_mem ?_ h
      intro a b ha hb' hne e
      exact hne (hf a b (hb a ha) (hb b hb') e)
  have hseq : (bs.map f).map (mroOf W') ++ [bs.map f] = (bs.map (mroOf W) ++ [bs]).map (List.map f) := by
    rw [List.map_append, List.map_map, List.map_map]
    congr 1
    exact List.map_congr_left hm
  have htot : ∀ seqs : List (List CId), total (seqs.map (List.map f)) = total seqs := by
    intro seqs
    unfold total
    rw [List.map_map]
    congr 1
    apply List.map_congr_left
    intro s _
    simp
  have hP : ∀ s ∈ bs.map (mroOf W) ++ [bs], ∀ x ∈ s, P x := by
    intro s hs x hx
    rcases List.mem_append.1 hs with hs | hs
    · obtain ⟨b, hb', rfl⟩ := List.mem_map.1 hs; exact hp b hb' x hx
    · rw [List.mem_singleton] at hs; subst hs; exact hb x hx
  have gen : (if ¬ (bs.map f).Nodup then none
      else match merge (total ((bs.map f).map (mroOf W') ++ [bs.map f])) ((bs.map f).map (mroOf W') ++ [bs.map f]) with
        | none => none
        | some l => some (f c :: l)) =
      (if ¬ bs.Nodup then none
      else match merge (total (bs.map (mroOf W) ++ [bs])) (bs.map (mroOf W) ++ [bs]) with
        | none => none
        | some l => some (c :: l)).map (List.map f) := by
    rw [hseq, htot, merge_map f P hf _ _ hP]
    by_cases h : bs.Nodup
    · simp only [h, hnd.2 h, not_true_eq_false, if_false]
      cases merge (total (bs.map (mroOf W) ++ [bs])) (bs.map (mroOf W) ++ [bs]) <;> simp
    · have h' : ¬ (bs.map f).Nodup := fun h' => h (hnd.1 h')
      simp [h, h']
  match bs, hm, gen with
  | [b], hm, _ => simp [computeMro, hm b (by simp)]
  | [], _, gen => exact gen
  | a :: b :: l, _, gen => exact gen

/-- after loading the classes `done` -/
structure Loaded (W W' : World L) (order done : List CId) : Prop where
  len : W'.length = W.length + done.length
  old : ∀ c, c < W.length → W'[c]? = W[c]?
  new : ∀ c ∈ done, mroOf W' (copyOf W order c) = (mroOf W c).map (copyOf W order) ∧
    layOf W' (copyOf W order c) = layOf W c ∧ ∀ n,
      ((dictOf W c).get n = none → (dictOf W' (copyOf W order c)).get n = none) ∧
      (∀ v, (dictOf W c).get n = some v →
        (dictOf W' (copyOf W order c)).get n = some (v.map (copyOf W order)) ∨
        ((dictOf W' (copyOf W order c)).get n = none ∧ Redundant W c n v))

theorem resolve_map (r : CId → CId) (l : List OB) : resolve (l.map (OB.map r)) = (resolve l).map r := by
  induction l with
  | nil => rfl
  | cons b l ih => cases b <;> simp [resolve, OB.map, ih]

theorem hasAlias_map (r : CId → CId) (l : List OB) : hasAlias (l.map (OB.map r)) = hasAlias l := by
  unfold hasAlias
  rw [List.any_map]
  congr 1
  funext b
  cases b <;> rfl

theorem load_one (hi : Inv layout W) (hs : Saved W order) (W' : World L) (pre : List CId) (c : CId) (post : List CId)
    (ho : order = pre ++ c :: post) (hl : Loaded W W' order pre) :
    ∃ W'', loadClass layout (copyOf W order) W W' c = .ok W'' ∧ Loaded W W'' order (pre ++ [c]) := by
  have hc : c ∈ order := by rw [ho]; simp
  have hcl := hs.known c hc
  have hc0 : c ≠ 0 := by rintro rfl; exact hs.notObject hc
  have hord := hs.ordinary c hc
  have hid : copyOf W order c = W'.length := by rw [copyOf_at W order hs.nodup pre c post ho, hl.len]
  obtain ⟨hbne, hblt⟩ := hi.bases c hcl hc0
  have hbl : ∀ b ∈ basesOf W c, b < W.length := fun b hb => Nat.lt_trans (hblt b hb) hcl
  -- what is known of the copies of the bases
  have hmro : ∀ b ∈ basesOf W c, mroOf W' (copyOf W order b) = (mroOf W b).map (copyOf W order) ∧
      layOf W' (copyOf W order b) = layOf W b := by
    intro b hb
    by_cases hbo : b ∈ order
    · obtain ⟨h1, h2, _⟩ := hl.new b (hs.basesFirst pre c post ho b hb hbo)
      exact ⟨h1, h2⟩
    · rw [copyOf_notMem W order hbo]
      have := hl.old b (hbl b hb)
      constructor
      · have hm : mroOf W' b = mroOf W b := by simp only [mroOf, this]
        rw [hm]
        conv => lhs; rw [← List.map_id (mroOf W b)]
        apply List.map_congr_left
        intro k hk
        rw [copyOf_notMem W order (hs.byRef b hbo k hk)]
        rfl
      · simp only [layOf, this]
  obtain ⟨ls, lay, ad, aw, hl1, hl2, hl3, had1, had2, haw1, haw2⟩ := hi.lay c hcl hc0
  have hcm : computeMro W' W'.length ((basesOf W c).map (copyOf W order)) =
      some ((mroOf W c).map (copyOf W order)) := by
    rw [← hid, computeMro_map W W' (copyOf W order) (· < W.length) (copyOf_inj W order) c (basesOf W c)
      (fun b hb => (hmro b hb).1) hbl (fun b _ k hk => hi.lt b k hk), hi.mro c hcl hc0]
    rfl
  have hlay : ((basesOf W c).map (copyOf W order)).mapM (layOf W') = some ls := by
    rw [← hl1, List.mapM_map]
    exact mapM_congr _ fun b hb => (hmro b hb).2
  -- creating the class from any namespace that has the saved entries
  have create : ∀ ns : Dict String Val,
      (∀ n, ns.get n = ((savedDict W c).get n).map (Val.map (copyOf W order))) →
      ∃ W'', typeNew layout W' (nameOf W c) ((basesOf W c).map (copyOf W order)) ns = .ok W'' ∧
        Loaded W W'' order (pre ++ [c]) := by
    intro ns hns
    have hslots : slotNames ns = slotNames (dictOf W c) := by
      rw [← slotNames_saved layout W hi c hord]
      unfold slotNames
      rw [hns]
      cases (savedDict W c).get "__slots__" with
      | none => rfl
      | some v => cases v <;> rfl
    have hmem : memberSlots ns = memberSlots (dictOf W c) := by unfold memberSlots; rw [hslots]
    have hconf : ∀ s ∈ memberSlots ns, ns.get (mangle (nameOf W c) s) = none := by
      intro s h
      rw [hmem] at h
      have h := (memberSlots_mem.1 h).1
      rw [hord.noPrivate s h, hns, get_savedDict W hi.wf]
      simp [h]
    refine ⟨_, (typeNew_iff layout W' _ _ _ ns).2 ⟨ls, _, lay, ad, aw, hlay, hcm, by rw [hslots]; exact hl3, hconf, rfl⟩, ?_⟩
    constructor
    · simp [hl.len]; omega
    · intro x hx
      rw [List.getElem?_append_left (by rw [hl.len]; exact Nat.lt_of_lt_of_le hx (Nat.le_add_right _ _)), hl.old x hx]
    · intro x hx
      rcases List.mem_append.1 hx with hx | hx
      · have hlt : copyOf W order x < W'.length := by
          obtain ⟨p, q, rfl⟩ := List.append_of_mem hx
          rw [copyOf_at W order hs.nodup p x (q ++ c :: post) (by rw [ho]; simp), hl.len]
          simp
        rw [mroOf_append _ _ hlt, layOf_append _ _ hlt, dictOf_append _ _ hlt]
        exact hl.new x hx
      · rw [List.mem_singleton] at hx
        subst hx
        rw [hid, mroOf_self, layOf_self, dictOf_self]
        refine ⟨rfl, hl2.symm, fun n => ?_⟩
        simp only []
        rw [← hid]
        exact own_copy layout W hi x hcl hc0 hord (copyOf W order) ns hns ad aw had1 had2 haw1 haw2 n
  unfold loadClass
  cases hob : lookup W c "__orig_bases__" with
  | none => exact create _ (fun n => get_mapDict _ _ n)
  | some v =>
    obtain ⟨l, hl', hres⟩ := hord.origOwn v hob
    have hv : v = .orig l := by
      unfold lookup at hob
      obtain ⟨t, ht⟩ := hi.head c hcl
      rw [ht, List.findSome?_cons, hl'] at hob
      cases hob; rfl
    subst hv
    simp only [newClass, resolve_map, hasAlias_map, hres]
    cases hasAlias l with
    | false => exact create _ (fun n => get_mapDict _ _ n)
    | true =>
      refine create _ (fun n => ?_)
      simp only [Dict.get_set]
      by_cases hn : n = "__orig_bases__"
      · subst hn
        have h1 : "__orig_bases__" ∉ (slotNames (dictOf W c)).getD [] := fun h => by
          have := hord.noSpecial _ h; simp at this
        have h2 : "__orig_bases__" ∉ toRemove (inheritedDict W (basesOf W c)) (dictOf W c) := by
          rw [mem_removed W hi.wf]
          rintro ⟨w, hw1, hw2, _⟩
          rw [hl'] at hw1; cases hw1; cases hw2
        rw [get_savedDict W hi.wf]
        simp [h1, h2, hl', Val.map]
      · simp only [hn, if_false]; exact get_mapDict _ _ n

theorem load_all (hi : Inv layout W) (hs : Saved W order) (W' : World L) (pre post : List CId)
    (ho : order = pre ++ post) (hl : Loaded W W' order pre) :
    ∃ W'', loadAll layout (copyOf W order) W post W' = .ok W'' ∧ Loaded W W'' order order := by
  induction post generalizing W' pre with
  | nil => rw [List.append_nil] at ho; subst ho; exact ⟨W', rfl, hl⟩
  | cons c post ih =>
    obtain ⟨W1, h1, h2⟩ := load_one layout W order hi hs W' pre c post ho hl
    obtain ⟨W2, h3, h4⟩ := ih W1 (pre ++ [c]) (by rw [ho]; simp) h2
    exact ⟨W2, by simp only [loadAll, h1, h3], h4⟩

theorem map_id_of_mentions (r : CId → CId) (v : Val) (h : ∀ k ∈ v.mentions, r k = k) : v.map r = v := by
  cases v with
  | orig l =>
    simp only [Val.map, Val.orig.injEq]
    simp only [Val.mentions, List.mem_flatMap] at h
    conv => rhs; rw [← List.map_id l]
    apply List.map_congr_left
    intro b hb
    cases b with
    | cls c => simp [OB.map, h c ⟨_, hb, by simp⟩]
    | alias a es =>
      simp only [OB.map, id, OB.alias.injEq, true_and]
      conv => rhs; rw [← List.map_id es]
      apply List.map_congr_left
      intro k hk
      exact h k ⟨_, hb, by simpa using hk⟩
  | slotD o n => simp [Val.map, h o (by simp [Val.mentions])]
  | dictD o => simp [Val.map, h o (by simp [Val.mentions])]
  | weakD o => simp [Val.map, h o (by simp [Val.mentions])]
  | _ => rfl

theorem lookup_suffix (hi : Inv layout W) (hs : Saved W order) (hst : Stable W order) (W' : World L)
    (hl : Loaded W W' order order) (c : CId) (hc : c ∈ order) (n : String) :
    ∀ (t pre : List CId), mroOf W c = pre ++ t →
      ((t.map (copyOf W order)).findSome? fun k => (dictOf W' k).get n) =
        (t.findSome? fun k => (dictOf W k).get n).map (Val.map (copyOf W order)) := by
  intro t
  induction t with
  | nil => intro _ _; rfl
  | cons k t ih =>
    intro pre hm
    have ih := ih (pre ++ [k]) (by rw [hm]; simp)
    rw [List.map_cons, List.findSome?_cons, List.findSome?_cons]
    by_cases hk : k ∈ order
    · obtain ⟨_, _, h3⟩ := hl.new k hk
      obtain ⟨h3, h4⟩ := h3 n
      cases hv : (dictOf W k).get n with
      | none => rw [h3 hv]; exact ih
      | some v =>
        rcases h4 v hv with h | ⟨h, hr⟩
        · rw [h]; rfl
        · rw [h]
          simp only []
          rw [ih, (findSome_first W t n v).2 (hst c hc pre k t hm hk n v hr)]
    · have hlt : k < W.length := hi.lt c k (by rw [hm]; simp)
      have hd : dictOf W' k = dictOf W k := by simp only [dictOf, hl.old k hlt]
      rw [copyOf_notMem W order hk, hd]
      cases hv : (dictOf W k).get n with
      | none => exact ih
      | some v =>
        simp only [Option.map_some]
        rw [map_id_of_mentions]
        intro x hx
        exact copyOf_notMem W order (hs.byRefVals k hk n v hv x hx)

end all

/-- C39 for ordinary classes: loading succeeds, leaves existing classes alone, and every attribute name resolves in
the copied class as in the original, the copy of what the original gives, along the copied resolution order. -/
theorem C39_lookup_partial (W : World L) (hW : Reach layout W) (order : List CId) (hs : Saved W order)
    (hst : Stable W order) :
    ∃ W', roundtrip layout W order = .ok W' ∧ (∀ c, c < W.length → W'[c]? = W[c]?) ∧
      ∀ c ∈ order, mroOf W' (copyOf W order c) = (mroOf W c).map (copyOf W order) ∧
        ∀ n, lookup W' (copyOf W order c) n = (lookup W c n).map (Val.map (copyOf W order)) := by
  have hi := hW.inv layout
  obtain ⟨W', h1, h2⟩ := load_all layout W order hi hs W [] order rfl ⟨rfl, fun _ _ => rfl, by simp⟩
  refine ⟨W', h1, h2.old, fun c hc => ⟨(h2.new c hc).1, fun n => ?_⟩⟩
  unfold lookup
  rw [(h2.new c hc).1]
  exact lookup_suffix layout W order hi hs hst W' h2 c hc n (mroOf W c) [] rfl

/-- with single inheritance, what a class repeats of its base is always what comes next -/
theorem stable_single (W : World L) (hi : Inv layout W) (order : List CId) (hs : Saved W order)
    (h1 : ∀ c ∈ order, ∃ b, basesOf W c = [b]) : Stable W order := by
  have key : ∀ m, ∀ c, c < m → c ∈ order → ∀ pre k t, mroOf W c = pre ++ k :: t → k ∈ order →
      ∀ n v, Redundant W k n v → FirstIn W t n v := by
    intro m
    induction m with
    | zero => intro c hc; exact absurd hc (Nat.not_lt_zero _)
    | succ m ih =>
      intro c hcm hc pre k t hm hk n v hr
      have hcl := hs.known c hc
      have hc0 : c ≠ 0 := by rintro rfl; exact hs.notObject hc
      obtain ⟨b, hb⟩ := h1 c hc
      have hmro := hi.mro c hcl hc0
      rw [hb] at hmro
      have hmro : mroOf W c = c :: mroOf W b := by
        simp only [computeMro, Option.some.injEq] at hmro; exact hmro.symm
      have hbc : b < c := (hi.bases c hcl hc0).2 b (by rw [hb]; simp)
      rw [hmro] at hm
      cases pre with
      | nil =>
        simp only [List.nil_append, List.cons.injEq] at hm
        obtain ⟨rfl, rfl⟩ := hm
        obtain ⟨p, b', q, h2, h3, h4⟩ := hr.2.2
        rw [hb] at h2
        cases p with
        | nil =>
          simp only [List.nil_append, List.cons.injEq] at h2
          obtain ⟨rfl, _⟩ := h2
          obtain ⟨t, ht⟩ := hi.head b (Nat.lt_trans hbc hcl)
          exact ⟨[], b, t, ht, h3, by simp⟩
        | cons a p => simp at h2
      | cons a pre =>
        simp only [List.cons_append, List.cons.injEq] at hm
        obtain ⟨_, hm⟩ := hm
        by_cases hbo : b ∈ order
        · exact ih b (Nat.lt_of_lt_of_le hbc (Nat.le_of_lt_succ hcm)) hbo pre k t hm hk n v hr
        · exact absurd hk (hs.byRef b hbo k (by rw [hm]; simp))
  intro c hc
  exact key (c + 1) c (Nat.lt_succ_self c) hc

/-- C39 for single inheritance: the condition on repeated objects is not needed. -/
theorem C39_single_inheritance_partial (W : World L) (hW : Reach layout W) (order : List CId) (hs : Saved W order)
    (h1 : ∀ c ∈ order, ∃ b, basesOf W c = [b]) :
    ∃ W', roundtrip layout W order = .ok W' ∧ ∀ c ∈ order, ∀ n,
      lookup W' (copyOf W order c) n = (lookup W c n).map (Val.map (copyOf W order)) := by
  obtain ⟨W', h2, _, h3⟩ :=
    C39_lookup_partial layout W hW order hs (stable_single layout W (hW.inv layout) order hs h1)
  exact ⟨W', h2, fun c hc => (h3 c hc).2⟩

/-! ### where the full property fails; concrete cases -/

section concrete

/-- a simple layout rule: a class without slots gets `__dict__` and `__weakref__` unless a base has them -/
def simpleLayout (ls : List (Bool × Bool)) (ss : Option (List String)) : Option ((Bool × Bool) × Bool × Bool) :=
  let d := ls.any (·.1)
  let w := ls.any (·.2)
  match ss with
  | none => some ((true, true), !d, !w)
  | some l =>
    let d' := l.contains "__dict__"
    let w' := l.contains "__weakref__"
    if d && d' || w && w' then none else some ((d || d', w || w'), d', w')

def stmt (W : World (Bool × Bool)) (name : String) (bases : List CId) (ns : Dict String Val) : World (Bool × Bool) :=
  match typeNew simpleLayout W name bases ns with
  | .ok W' => W'
  | .error _ => W

theorem reach_stmt {W : World (Bool × Bool)} (h : Reach simpleLayout W) (name : String) (bases : List CId)
    (ns : Dict String Val) (hb : bases ≠ []) (hw : ns.WF) (ho : ∀ p ∈ ns, p.2.owner? = none) :
    Reach simpleLayout (stmt W name bases ns) := by
  unfold stmt
  cases e : typeNew simpleLayout W name bases ns with
  | error _ => exact h
  | ok W' =>
    refine .stmt name bases ns h hb hw ?_ e
    intro n v o hn hv
    have := ho _ (Dict.mem_of_get hn)
    rw [hv] at this; cases this

def fn (a : Nat) : Val := .obj a true

/-- `object`, with a few of its functions -/
def W0 : World (Bool × Bool) :=
  [⟨"object", [], [0], [("__hash__", fn 1), ("__eq__", fn 2), ("__init__", fn 3), ("__doc__", .obj 4 false)],
    (false, false)⟩]

theorem reach_W0 : Reach simpleLayout W0 := .object _ _ (by decide)

def ask (r : Except Err (World (Bool × Bool))) (c : CId) (n : String) : Option (Option Val) :=
  match r with
  | .ok W => some (lookup W c n)
  | .error _ => none

/-- `class P: __eq__ = ...; __hash__ = object.__hash__` -/
def Whash := stmt W0 "P" [0] [("__eq__", fn 10), ("__hash__", fn 1)]

/-- C39 is false when a class keeps its base's `__hash__` explicitly, as Python's documentation asks of a class that
defines `__eq__`: dill drops the entry as inherited, and `type()` then makes the copy unhashable. -/
theorem C39_hash_lost : Reach simpleLayout Whash ∧ lookup Whash 1 "__hash__" = some (fn 1) ∧
    copyOf Whash [1] 1 = 2 ∧ ask (roundtrip simpleLayout Whash [1]) 2 "__hash__" = some (some .none_) :=
  ⟨reach_stmt reach_W0 _ _ _ (by decide) (by decide) (by decide), by decide +kernel, by decide +kernel,
    by decide +kernel⟩

/-- `class A(Generic[T]): x = ...` and `class B(A): y = ...` -/
def Wgen := stmt (stmt (stmt W0 "Generic" [0] [("__class_getitem__", fn 9)]) "A" [1]
  [("__orig_bases__", .orig [.alias 0 [1]]), ("x", fn 10)]) "B" [2] [("y", fn 11)]

/-- C39 is false for a plain subclass of a generic class: `__orig_bases__` is found by inheritance, so the copy gets
the parent's bases instead of the parent, and the parent's attributes are gone. -/
theorem C39_generic_parent_lost : Reach simpleLayout Wgen ∧ lookup Wgen 3 "x" = some (fn 10) ∧
    copyOf Wgen [3] 3 = 4 ∧ ask (roundtrip simpleLayout Wgen [3]) 4 "x" = some none ∧
    ask (roundtrip simpleLayout Wgen [3]) 4 "y" = some (some (fn 11)) :=
  ⟨reach_stmt (reach_stmt (reach_stmt reach_W0 _ _ _ (by decide) (by decide) (by decide)) _ _ _ (by decide) (by decide)
    (by decide)) _ _ _ (by decide) (by decide) (by decide), by decide +kernel, by decide +kernel, by decide +kernel,
    by decide +kernel⟩

/-- `class P: f = ...`, `class B1(P): pass`, `class B2: f = ...`, `class C(B1, B2): f = B2.f` -/
def Wmulti := stmt (stmt (stmt (stmt W0 "P" [0] [("f", fn 10)]) "B1" [1] []) "B2" [0] [("f", fn 11)]) "C" [2, 3]
  [("f", fn 11)]

/-- C39 is false when a class with several bases picks a later base's method: the entry is dropped, and an ancestor
of an earlier base answers instead. -/
theorem C39_chosen_base_lost : Reach simpleLayout Wmulti ∧ lookup Wmulti 4 "f" = some (fn 11) ∧
    copyOf Wmulti [4] 4 = 5 ∧ ask (roundtrip simpleLayout Wmulti [4]) 5 "f" = some (some (fn 10)) :=
  ⟨reach_stmt (reach_stmt (reach_stmt (reach_stmt reach_W0 _ _ _ (by decide) (by decide) (by decide)) _ _ _ (by decide)
    (by decide) (by decide)) _ _ _ (by decide) (by decide) (by decide)) _ _ _ (by decide) (by decide) (by decide),
    by decide +kernel, by decide +kernel, by decide +kernel⟩

/-- `class P: f = ...`, `class K(P): f = P.f`, `class X(P): f = ...`, `class C(K, X): pass` -/
def Wdiamond := stmt (stmt (stmt (stmt W0 "P" [0] [("f", fn 10)]) "K" [1] [("f", fn 10)]) "X" [1] [("f", fn 11)]) "C"
  [2, 3] []

/-- C39 is false when a class pins its base's method: in the copy a sibling's method takes over. -/
theorem C39_pinned_method_lost : Reach simpleLayout Wdiamond ∧ lookup Wdiamond 4 "f" = some (fn 10) ∧
    copyOf Wdiamond [1, 2, 3, 4] 4 = 8 ∧
    ask (roundtrip simpleLayout Wdiamond [1, 2, 3, 4]) 8 "f" = some (some (fn 11)) :=
  ⟨reach_stmt (reach_stmt (reach_stmt (reach_stmt reach_W0 _ _ _ (by decide) (by decide) (by decide)) _ _ _ (by decide)
    (by decide) (by decide)) _ _ _ (by decide) (by decide) (by decide)) _ _ _ (by decide) (by decide) (by decide),
    by decide +kernel, by decide +kernel, by decide +kernel⟩

/-- `class S: __slots__ = ['__x']` -/
def Wprivate := stmt W0 "S" [0] [("__slots__", .slots ["__x"])]

/-- C39 is false for classes with private slots: the mangled descriptor stays in the saved dict and clashes with
`__slots__` when the class is made. -/
theorem C39_private_slot_fails : Reach simpleLayout Wprivate ∧ lookup Wprivate 1 "_S__x" = some (.slotD 1 "_S__x") ∧
    (match roundtrip simpleLayout Wprivate [1] with | .error e => some e | .ok _ => none) = some .valueError :=
  ⟨reach_stmt reach_W0 _ _ _ (by decide) (by decide) (by decide), by decide +kernel, by decide +kernel⟩

/-- `class S: __slots__ = ['y']`, then `S.y = ...` -/
def Wslot := setAttr (stmt W0 "S" [0] [("__slots__", .slots ["y"])]) 1 "y" (some (fn 10))

/-- C39 is false when a slot was replaced by a class attribute. -/
theorem C39_replaced_slot_lost : Reach simpleLayout Wslot ∧ lookup Wslot 1 "y" = some (fn 10) ∧
    ask (roundtrip simpleLayout Wslot [1]) 2 "y" = some (some (.slotD 2 "y")) :=
  ⟨.assign 1 "y" (fn 10) (reach_stmt reach_W0 _ _ _ (by decide) (by decide) (by decide)) (by decide) (by decide),
    by decide +kernel, by decide +kernel⟩

/-- `class D: __dict__ = property(...)` -/
def Wdict := stmt W0 "D" [0] [("__dict__", .obj 10 false)]

/-- C39 is false for a class that defines its own `__dict__`. -/
theorem C39_own_dict_lost : Reach simpleLayout Wdict ∧ lookup Wdict 1 "__dict__" = some (.obj 10 false) ∧
    ask (roundtrip simpleLayout Wdict [1]) 2 "__dict__" = some (some (.dictD 2)) :=
  ⟨reach_stmt reach_W0 _ _ _ (by decide) (by decide) (by decide), by decide +kernel, by decide +kernel⟩

/-- a hierarchy that meets the hypotheses: `class A: __slots__ = ('s', '__dict__'); f = ...`,
`class B(A): f = A.f; __eq__ = ...; __hash__ = ...`, `class M: g = ...`, `class C(B, M): g = ...` -/
def Wgood := stmt (stmt (stmt (stmt W0 "A" [0] [("__slots__", .slots ["s", "__dict__"]), ("f", fn 10)]) "B" [1]
  [("f", fn 10), ("__eq__", fn 11), ("__hash__", fn 12)]) "M" [0] [("g", fn 13)]) "C" [2, 3] [("g", fn 14)]

theorem reach_good : Reach simpleLayout Wgood :=
  reach_stmt (reach_stmt (reach_stmt (reach_stmt reach_W0 _ _ _ (by decide) (by decide) (by decide)) _ _ _ (by decide)
    (by decide) (by decide)) _ _ _ (by decide) (by decide) (by decide)) _ _ _ (by decide) (by decide) (by decide)
example : mroOf Wgood 4 = [4, 2, 1, 3, 0] := by decide +kernel
example : ask (roundtrip simpleLayout Wgood [1, 2, 3, 4]) 8 "f" = some (some (fn 10)) := by decide +kernel
example : ask (roundtrip simpleLayout Wgood [1, 2, 3, 4]) 8 "s" = some (some (.slotD 5 "s")) := by decide +kernel
example : ask (roundtrip simpleLayout Wgood [1, 2, 3, 4]) 8 "__dict__" = some (some (.dictD 5)) := by decide +kernel

theorem good_redundant (k : CId) (n : String) (v : Val) (h : Redundant Wgood k n v) (hk : k ∈ [1, 2, 3, 4]) :
    k = 2 ∧ n = "f" ∧ v = fn 10 := by
  have h1 := (mem_removed Wgood (reach_good.inv _).wf k n).2 ⟨v, h⟩
  have e1 : toRemove (inheritedDict Wgood (basesOf Wgood 1)) (dictOf Wgood 1) = [] := by decide +kernel
  have e2 : toRemove (inheritedDict Wgood (basesOf Wgood 2)) (dictOf Wgood 2) = ["f"] := by decide +kernel
  have e3 : toRemove (inheritedDict Wgood (basesOf Wgood 3)) (dictOf Wgood 3) = [] := by decide +kernel
  have e4 : toRemove (inheritedDict Wgood (basesOf Wgood 4)) (dictOf Wgood 4) = [] := by decide +kernel
  simp only [List.mem_cons, List.not_mem_nil, or_false] at hk
  rcases hk with rfl | rfl | rfl | rfl
  · rw [e1] at h1; cases h1
  · rw [e2] at h1
    have hn : n = "f" := by simpa using h1
    subst hn
    have : (dictOf Wgood 2).get "f" = some (fn 10) := by decide +kernel
    have hv := h.1
    rw [this] at hv; cases hv
    exact ⟨rfl, rfl, rfl⟩
  · rw [e3] at h1; cases h1
  · rw [e4] at h1; cases h1

theorem good_outside (r : CId) (h : r ∉ [1, 2, 3, 4]) : r = 0 ∨ Wgood[r]? = none := by
  match r with
  | 0 => exact .inl rfl
  | 1 => simp at h
  | 2 => simp at h
  | 3 => simp at h
  | 4 => simp at h
  | r + 5 =>
    have : Wgood.length = 5 := by decide +kernel
    exact .inr (List.getElem?_eq_none_iff.2 (by rw [this]; exact Nat.le_add_left 5 r))

example : Saved Wgood [1, 2, 3, 4] where
  nodup := by decide
  known := by decide +kernel
  notObject := by decide
  basesFirst := by
    intro pre c post h b hb hbo
    match pre, h with
    | [], h => cases h; revert hb hbo b; decide +kernel
    | [_], h => cases h; revert hb hbo b; decide +kernel
    | [_, _], h => cases h; revert hb hbo b; decide +kernel
    | [_, _, _], h => cases h; revert hb hbo b; decide +kernel
    | _ :: _ :: _ :: _ :: _, h => simp at h
  byRef := by
    intro r hr k hk
    rcases good_outside r hr with rfl | h
    · revert k; decide +kernel
    · simp [mroOf, h] at hk
  byRefVals := by
    intro r hr n v hv k hk
    rcases good_outside r hr with rfl | h
    · have : ∀ p ∈ dictOf Wgood 0, p.2.mentions = [] := by decide +kernel
      rw [this _ (Dict.mem_of_get hv)] at hk; cases hk
    · simp [dictOf, h] at hv
  ordinary := by
    intro c hc
    have hred : ∀ v, ¬ Redundant Wgood 2 "__hash__" v := fun v h => by
      have := (good_redundant 2 _ v h (by decide)).2.1; simp at this
    simp only [List.mem_cons, List.not_mem_nil, or_false] at hc
    have val : ∀ (d : Dict String Val) (n : String) (o : Option Val), d.get n = o → ∀ v, d.get n = some v → some v = o := by
      intro d n o h v hv; rw [← hv, h]
    rcases hc with rfl | rfl | rfl | rfl
    · exact ⟨by decide +kernel, by decide +kernel, by decide +kernel,
        fun v hv => (by cases val _ _ (some (.dictD 1)) (by decide +kernel) v hv; rfl),
        fun v hv => (by cases val _ _ none (by decide +kernel) v hv),
        fun h => absurd (by decide +kernel) h,
        fun v hv => (by cases val _ _ (some .none_) (by decide +kernel) v hv; rfl),
        fun v hv => (by cases val _ _ (some (.obj 0 false)) (by decide +kernel) v hv; rfl),
        fun v hv => by rw [show lookup Wgood 1 "__orig_bases__" = none by decide +kernel] at hv; cases hv⟩
    · exact ⟨by decide +kernel, by decide +kernel, by decide +kernel,
        fun v hv => (by cases val _ _ none (by decide +kernel) v hv),
        fun v hv => (by cases val _ _ (some (.weakD 2)) (by decide +kernel) v hv; rfl),
        fun _ => ⟨fn 12, by decide +kernel, hred _⟩,
        fun v hv => (by cases val _ _ (some .none_) (by decide +kernel) v hv; rfl),
        fun v hv => (by cases val _ _ (some (.obj 0 false)) (by decide +kernel) v hv; rfl),
        fun v hv => by rw [show lookup Wgood 2 "__orig_bases__" = none by decide +kernel] at hv; cases hv⟩
    · exact ⟨by decide +kernel, by decide +kernel, by decide +kernel,
        fun v hv => (by cases val _ _ (some (.dictD 3)) (by decide +kernel) v hv; rfl),
        fun v hv => (by cases val _ _ (some (.weakD 3)) (by decide +kernel) v hv; rfl),
        fun h => absurd (by decide +kernel) h,
        fun v hv => (by cases val _ _ (some .none_) (by decide +kernel) v hv; rfl),
        fun v hv => (by cases val _ _ (some (.obj 0 false)) (by decide +kernel) v hv; rfl),
        fun v hv => by rw [show lookup Wgood 3 "__orig_bases__" = none by decide +kernel] at hv; cases hv⟩
    · exact ⟨by decide +kernel, by decide +kernel, by decide +kernel,
        fun v hv => (by cases val _ _ none (by decide +kernel) v hv),
        fun v hv => (by cases val _ _ none (by decide +kernel) v hv),
        fun h => absurd (by decide +kernel) h,
        fun v hv => (by cases val _ _ (some .none_) (by decide +kernel) v hv; rfl),
        fun v hv => (by cases val _ _ (some (.obj 0 false)) (by decide +kernel) v hv; rfl),
        fun v hv => by rw [show lookup Wgood 4 "__orig_bases__" = none by decide +kernel] at hv; cases hv⟩

example : Stable Wgood [1, 2, 3, 4] := by
  intro c hc pre k t hm hk n v hr
  obtain ⟨rfl, rfl, rfl⟩ := good_redundant k n v hr hk
  have ht : t.head? = some 1 := by
    simp only [List.mem_cons, List.not_mem_nil, or_false] at hc
    rcases hc with rfl | rfl | rfl | rfl
    · rw [show mroOf Wgood 1 = [1, 0] by decide +kernel] at hm
      match pre, hm with
      | [], hm => simp at hm
      | [_], hm => simp at hm
      | _ :: _ :: _, hm => simp at hm
    · rw [show mroOf Wgood 2 = [2, 1, 0] by decide +kernel] at hm
      match pre, hm with
      | [], hm => simp at hm; rw [← hm]; rfl
      | [_], hm => simp at hm
      | [_, _], hm => simp at hm
      | _ :: _ :: _ :: _, hm => simp at hm
    · rw [show mroOf Wgood 3 = [3, 0] by decide +kernel] at hm
      match pre, hm with
      | [], hm => simp at hm
      | [_], hm => simp at hm
      | _ :: _ :: _, hm => simp at hm
    · rw [show mroOf Wgood 4 = [4, 2, 1, 3, 0] by decide +kernel] at hm
      match pre, hm with
      | [], hm => simp at hm
      | [_], hm => simp at hm; rw [← hm.2]; rfl
      | [_, _], hm => simp at hm
      | [_, _, _], hm => simp at hm
      | [_, _, _, _], hm => simp at hm
      | _ :: _ :: _ :: _ :: _ :: _, hm => simp at hm
  cases t with
  | nil => cases ht
  | cons a t => simp at ht; subst ht; exact ⟨[], 1, t, rfl, by decide +kernel, by simp⟩

end concrete

end Verif.TypeDict
