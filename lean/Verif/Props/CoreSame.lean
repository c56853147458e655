import Verif.Spec.Refs
import Verif.Model.Wire
/-! C103: a pickle does not depend on where the objects are in memory, nor on anything that cannot be reached from the object. -/
set_option linter.unusedSimpArgs false
set_option linter.unusedVariables false
namespace Verif.Core

/-! ### Specification: two programs have the same object -/

namespace Same

/-- two lists have related elements, in the same order -/
inductive Lists {α β : Type} (r : α → β → Prop) : List α → List β → Prop where
  | nil : Lists r [] []
  | cons {a b as bs} : r a b → Lists r as bs → Lists r (a :: as) (b :: bs)

section
variable (R : Addr → Addr → Prop)

/-- `R`: which object of the one program is which object of the other -/
inductive Vals : Val → Val → Prop where
  | atom (a : Atom) : Vals (.atom a) (.atom a)
  | ref {x y : Addr} : R x y → Vals (.ref x) (.ref y)

def Pairs (p q : Val × Val) : Prop := Vals R p.1 q.1 ∧ Vals R p.2 q.2

inductive Opts {α β : Type} (r : α → β → Prop) : Option α → Option β → Prop where
  | none : Opts r none none
  | some {a b} : r a b → Opts r (some a) (some b)

inductive States : St → St → Prop where
  | opaque {v w} : Vals R v w → States (.opaque v) (.opaque w)
  | attrs {es fs} : Lists (Pairs R) es fs → States (.attrs es) (.attrs fs)

inductive Cons : Con → Con → Prop where
  | list : Cons .list .list
  | dict : Cons .dict .dict
  | set : Cons .set .set
  | red {f g as bs} : Vals R f g → Lists (Vals R) as bs → Cons (.red f as) (.red g bs)
  | newobj {f g as bs} : Vals R f g → Lists (Vals R) as bs → Cons (.newobj f as) (.newobj g bs)

inductive Globals : Globs → Globs → Prop where
  | byRef {v w} : Vals R v w → Globals (.byRef v) (.byRef w)
  | copied {i j c d} : Lists (Pairs R) i j → Lists (Pairs R) c d → Globals (.copied i c) (.copied j d)

/-- objects of the same kind with the same contents, iterated in the same order -/
inductive Objs : SObj → SObj → Prop where
  | leaf (a) : Objs (.leaf a) (.leaf a)
  | tuple {es fs} : Lists (Vals R) es fs → Objs (.tuple es) (.tuple fs)
  | fset {es fs} : Lists (Vals R) es fs → Objs (.fset es) (.fset fs)
  | node {c c' l l' d d' s s'} : Cons R c c' → Lists (Vals R) l l' → Lists (Pairs R) d d' → Opts (States R) s s' →
      Objs (.node c l d s) (.node c' l' d' s')
  | cell {c c'} : Opts (Vals R) c c' → Objs (.cell c) (.cell c')
  | func {c c' g g' n n' d d' k k' a a' s s'} : Vals R c c' → Globals R g g' → Vals R n n' → Vals R d d' → Vals R k k' →
      Lists (Pairs R) a a' → Lists (Pairs R) s s' → Objs (.func c g n d k a s) (.func c' g' n' d' k' a' s')
  | cls {m m' n n' b b' d d' q q'} : Vals R m m' → Vals R n n' → Vals R b b' → Lists (Pairs R) d d' → Vals R q q' →
      Objs (.cls m n b d q) (.cls m' n' b' d' q')
  | bad : Objs .bad .bad

/-- the two programs hold the same objects, as far as `R` goes: an object is at one place, related objects have related contents and are
found under the same name if at all; dill's own helpers are the same -/
structure Programs (W W' : World) : Prop where
  once : ∀ x y y', R x y → R x y' → y = y'
  once' : ∀ x x' y, R x y → R x' y → x = x'
  objs : ∀ x y, R x y → Objs R (W.H x) (W'.H y)
  names : ∀ x y, R x y → W.byName x = W'.byName y
  createFunction : Vals R W.createFunction W'.createFunction
  createCell : Vals R W.createCell W'.createCell
  createType : Vals R W.createType W'.createType
  cellEmpty : Vals R W.cellEmpty W'.cellEmpty
  setattr : Vals R W.setattr W'.setattr
  delattr : Vals R W.delattr W'.delattr
  contents : Vals R W.contents W'.contents
  qualname : Vals R W.qualname W'.qualname
end

/-! ### Lemmas -/

variable {α β : Type} {r : α → β → Prop}

theorem Lists.length {as : List α} {bs : List β} (h : Lists r as bs) : as.length = bs.length := by
  induction h <;> simp [*]

theorem Lists.isEmpty {as : List α} {bs : List β} (h : Lists r as bs) : as.isEmpty = bs.isEmpty := by
  cases h <;> rfl

theorem Lists.take {as : List α} {bs : List β} (h : Lists r as bs) (n : Nat) : Lists r (as.take n) (bs.take n) := by
  induction h generalizing n with
  | nil => simp; exact .nil
  | cons ha _ ih => cases n with
    | zero => exact .nil
    | succ n => exact .cons ha (ih n)

theorem Lists.drop {as : List α} {bs : List β} (h : Lists r as bs) (n : Nat) : Lists r (as.drop n) (bs.drop n) := by
  induction h generalizing n with
  | nil => simp; exact .nil
  | cons ha h ih => cases n with
    | zero => exact .cons ha h
    | succ n => exact ih n

theorem Lists.append {as as' : List α} {bs bs' : List β} (h : Lists r as bs) (h' : Lists r as' bs') : Lists r (as ++ as') (bs ++ bs') := by
  induction h with
  | nil => exact h'
  | cons ha _ ih => exact .cons ha ih

theorem Lists.reverse {as : List α} {bs : List β} (h : Lists r as bs) : Lists r as.reverse bs.reverse := by
  induction h with
  | nil => exact .nil
  | cons ha _ ih => simp only [List.reverse_cons]; exact ih.append (.cons ha .nil)

theorem Lists.map {γ δ : Type} {s : γ → δ → Prop} {f : α → γ} {g : β → δ} (hf : ∀ a b, r a b → s (f a) (g b)) {as : List α} {bs : List β}
    (h : Lists r as bs) : Lists s (as.map f) (bs.map g) := by
  induction h with
  | nil => exact .nil
  | cons ha _ ih => exact .cons (hf _ _ ha) ih

theorem Lists.findIdx {f : α → Bool} {g : β → Bool} (hf : ∀ a b, r a b → f a = g b) {as : List α} {bs : List β}
    (h : Lists r as bs) : as.findIdx? f = bs.findIdx? g := by
  induction h with
  | nil => rfl
  | cons ha _ ih => simp only [List.findIdx?_cons, hf _ _ ha, ih]

theorem Lists.any {f : α → Bool} {g : β → Bool} (hf : ∀ a b, r a b → f a = g b) {as : List α} {bs : List β}
    (h : Lists r as bs) : as.any f = bs.any g := by
  induction h with
  | nil => rfl
  | cons ha _ ih => simp only [List.any_cons, hf _ _ ha, ih]

theorem Lists.filter {f : α → Bool} {g : β → Bool} (hf : ∀ a b, r a b → f a = g b) {as : List α} {bs : List β}
    (h : Lists r as bs) : Lists r (as.filter f) (bs.filter g) := by
  induction h with
  | nil => exact .nil
  | @cons a b _ _ ha _ ih =>
    simp only [List.filter_cons, hf _ _ ha]
    split
    · exact .cons ha ih
    · exact ih

theorem Lists.find {f : α → Bool} {g : β → Bool} (hf : ∀ a b, r a b → f a = g b) {as : List α} {bs : List β}
    (h : Lists r as bs) : Opts r (as.find? f) (bs.find? g) := by
  induction h with
  | nil => exact .none
  | @cons a b _ _ ha _ ih =>
    simp only [List.find?_cons, hf _ _ ha]
    cases g b with
    | true => exact .some ha
    | false => exact ih

theorem Lists.chunksAux (n : Nat) : ∀ {as : List α} {bs : List β}, Lists r as bs → Lists (Lists r) (Core.chunksAux n as) (Core.chunksAux n bs) := by
  induction n with
  | zero => intro as bs h; exact .nil
  | succ n ih =>
    intro as bs h
    simp only [Core.chunksAux, h.isEmpty]
    split
    · exact .nil
    · exact .cons (h.take _) (ih (h.drop _))

theorem Lists.chunks {as : List α} {bs : List β} (h : Lists r as bs) : Lists (Lists r) (Core.chunks as) (Core.chunks bs) := by
  unfold Core.chunks
  rw [h.length]
  exact h.chunksAux _

/-! #### the pickler's state -/

section
variable (R : Addr → Addr → Prop)

inductive Keys : Key → Key → Prop where
  | obj {x y} : R x y → Keys (.obj x) (.obj y)
  | globs {x y} : R x y → Keys (.globs x) (.globs y)
  | anon : Keys .anon .anon

inductive Reds : Red → Red → Prop where
  | setCell {x y v w} : R x y → Vals R v w → Reds (.setCell x v) (.setCell y w)
  | setQual {x y v w} : R x y → Vals R v w → Reds (.setQual x v) (.setQual y w)
  | setItems {x y c d} : R x y → Lists (Pairs R) c d → Reds (.setItems x c) (.setItems y d)
  | setDead {x y c d} : R x y → Lists (Pairs R) c d → Reds (.setDead x c) (.setDead y d)

def Posts (a b : Addr × List Red) : Prop := R a.1 b.1 ∧ Lists (Reds R) a.2 b.2

structure Picklers (p q : P) : Prop where
  memo : Lists (Keys R) p.memo q.memo
  post : Lists (Posts R) p.post q.post

inductive Results : Except (Err × P) (P × List Op) → Except (Err × P) (P × List Op) → Prop where
  | ok {p q o} : Picklers R p q → Results (.ok (p, o)) (.ok (q, o))
  | error {e p q} : Picklers R p q → Results (.error (e, p)) (.error (e, q))

def Acts (f g : PM) : Prop := ∀ p q, Picklers R p q → Results R (f p) (g q)

inductive Args : Arg → Arg → Prop where
  | val {v w} : Vals R v w → Args (.val v) (.val w)
  | dict {k l es fs} : Keys R k l → Lists (Pairs R) es fs → Args (.dict k es) (.dict l fs)
end

variable {R : Addr → Addr → Prop} {W W' : World}

theorem acts_emit (o : List Op) : Acts R (emit o) (emit o) := fun _ _ h => .ok h

theorem acts_then {f f' g g' : PM} (h1 : Acts R f f') (h2 : Acts R g g') : Acts R (f ;; g) (f' ;; g') := by
  intro p q h
  unfold andThen
  have e1 := h1 p q h
  revert e1
  generalize f p = a
  generalize f' q = b
  intro e1
  cases e1 with
  | error hp => exact .error hp
  | @ok p1 q1 o hp =>
    have e2 := h2 p1 q1 hp
    revert e2
    simp only
    generalize g p1 = a
    generalize g' q1 = b
    intro e2
    cases e2 with
    | error hp => exact .error hp
    | ok hp => exact .ok hp

theorem acts_memoize {k l} (h : Keys R k l) : Acts R (memoize k) (memoize l) :=
  fun _ _ hp => .ok ⟨hp.memo.append (.cons h .nil), hp.post⟩

theorem keys_eq (hW : Programs R W W') {a b k l} (h : Keys R a b) (h' : Keys R k l) : (decide (a = k)) = (decide (b = l)) := by
  have : a = k ↔ b = l := by
    cases h <;> cases h' <;> simp
    · rename_i h1 _ _ h2
      exact ⟨fun e => by subst e; exact hW.once _ _ _ h1 h2, fun e => by subst e; exact hW.once' _ _ _ h1 h2⟩
    · rename_i h1 _ _ h2
      exact ⟨fun e => by subst e; exact hW.once _ _ _ h1 h2, fun e => by subst e; exact hW.once' _ _ _ h1 h2⟩
  by_cases e : a = k
  · simp [e, this.1 e]
  · simp [e, mt this.2 e]

theorem idx_eq (hW : Programs R W W') {p q : P} (h : Picklers R p q) {k l} (hk : Keys R k l) : idx p.memo k = idx q.memo l :=
  h.memo.findIdx fun _ _ hab => keys_eq hW hab hk

theorem addr_eq (hW : Programs R W W') {x y x' y'} (h : R x y) (h' : R x' y') : (decide (x = x')) = (decide (y = y')) := by
  have := keys_eq hW (.obj h) (.obj h')
  simpa using this

theorem onStack_eq (hW : Programs R W W') {p q : P} (h : Picklers R p q) {x y} (hx : R x y) : p.onStack x = q.onStack y :=
  h.post.any fun _ _ hab => addr_eq hW hab.1 hx

theorem acts_memoOrGet (hW : Programs R W W') {x y} (h : R x y) : Acts R (memoOrGet x) (memoOrGet y) := by
  intro p q hp
  unfold memoOrGet
  rw [idx_eq hW hp (.obj h)]
  cases idx q.memo (.obj y) with
  | some i => exact .ok hp
  | none => exact acts_memoize (.obj h) p q hp

variable {sv sv' : Val → PM} (hsv : ∀ v w, Vals R v w → Acts R (sv v) (sv' w))
include hsv

theorem acts_saveAll {vs ws} (h : Lists (Vals R) vs ws) : Acts R (saveAll sv vs) (saveAll sv' ws) := by
  induction h with
  | nil => exact acts_emit _
  | cons ha _ ih => exact acts_then (hsv _ _ ha) ih

theorem acts_saveKVs {vs ws} (h : Lists (Pairs R) vs ws) : Acts R (saveKVs sv vs) (saveKVs sv' ws) := by
  induction h with
  | nil => exact acts_emit _
  | cons ha _ ih => exact acts_then (hsv _ _ ha.1) (acts_then (hsv _ _ ha.2) ih)

theorem acts_batchAppends {vs ws} (h : Lists (Vals R) vs ws) : Acts R (batchAppends sv vs) (batchAppends sv' ws) := by
  unfold batchAppends
  have hc := h.chunks
  revert hc
  generalize chunks vs = cs
  generalize chunks ws = ds
  intro hc
  induction hc with
  | nil => exact acts_emit _
  | cons ha _ ih =>
    simp only [List.foldr_cons]
    refine acts_then ?_ ih
    cases ha with
    | nil => exact acts_then (acts_emit _) (acts_then (acts_emit _) (acts_emit _))
    | cons h1 ht =>
      cases ht with
      | nil => exact acts_then (hsv _ _ h1) (acts_emit _)
      | cons h2 ht => exact acts_then (acts_emit _) (acts_then (acts_saveAll hsv (.cons h1 (.cons h2 ht))) (acts_emit _))

theorem acts_batchAdds {vs ws} (h : Lists (Vals R) vs ws) : Acts R (batchAdds sv vs) (batchAdds sv' ws) := by
  unfold batchAdds
  have hc := h.chunks
  revert hc
  generalize chunks vs = cs
  generalize chunks ws = ds
  intro hc
  induction hc with
  | nil => exact acts_emit _
  | cons ha _ ih =>
    simp only [List.foldr_cons]
    exact acts_then (acts_then (acts_emit _) (acts_then (acts_saveAll hsv ha) (acts_emit _))) ih

theorem acts_batchSetitems {vs ws} (h : Lists (Pairs R) vs ws) : Acts R (batchSetitems sv vs) (batchSetitems sv' ws) := by
  unfold batchSetitems
  have hc := h.chunks
  revert hc
  generalize chunks vs = cs
  generalize chunks ws = ds
  intro hc
  induction hc with
  | nil => exact acts_emit _
  | cons ha _ ih =>
    simp only [List.foldr_cons]
    refine acts_then ?_ ih
    cases ha with
    | nil => exact acts_then (acts_emit _) (acts_then (acts_emit _) (acts_emit _))
    | cons h1 ht =>
      cases ht with
      | nil => exact acts_then (hsv _ _ h1.1) (acts_then (hsv _ _ h1.2) (acts_emit _))
      | cons h2 ht => exact acts_then (acts_emit _) (acts_then (acts_saveKVs hsv (.cons h1 (.cons h2 ht))) (acts_emit _))

theorem acts_saveDict {k l es fs} (hk : Keys R k l) (h : Lists (Pairs R) es fs) : Acts R (saveDict sv k es) (saveDict sv' l fs) :=
  acts_then (acts_emit _) (acts_then (acts_memoize hk) (acts_batchSetitems hsv h))

theorem acts_saveArgs {as bs} (h : Lists (Args R) as bs) : Acts R (saveArgs sv as) (saveArgs sv' bs) := by
  induction h with
  | nil => exact acts_emit _
  | cons ha _ ih =>
    refine acts_then ?_ ih
    cases ha with
    | val h => exact hsv _ _ h
    | dict hk h => exact acts_saveDict hsv hk h

theorem acts_anonTuple {as bs} (h : Lists (Args R) as bs) : Acts R (anonTuple sv as) (anonTuple sv' bs) := by
  unfold anonTuple
  rw [h.isEmpty, h.length]
  split
  · exact acts_emit _
  · split
    · exact acts_then (acts_saveArgs hsv h) (acts_then (acts_emit _) (acts_memoize .anon))
    · exact acts_then (acts_emit _) (acts_then (acts_saveArgs hsv h) (acts_then (acts_emit _) (acts_memoize .anon)))

theorem acts_callReduce {f g as bs} (hf : Vals R f g) (h : Lists (Args R) as bs) : Acts R (callReduce sv f as) (callReduce sv' g bs) :=
  acts_then (hsv _ _ hf) (acts_then (acts_anonTuple hsv h) (acts_emit _))

theorem acts_saveTuple (hW : Programs R W W') {x y es fs} (hx : R x y) (h : Lists (Vals R) es fs) :
    Acts R (saveTuple sv x es) (saveTuple sv' y fs) := by
  unfold saveTuple
  rw [h.isEmpty, h.length]
  have last : ∀ o1 o2 : List Op, Acts R (fun p => match idx p.memo (.obj x) with
      | some i => .ok (p, o1 ++ [.get i])
      | none => (emit o2 ;; memoize (.obj x)) p) (fun p => match idx p.memo (.obj y) with
      | some i => .ok (p, o1 ++ [.get i])
      | none => (emit o2 ;; memoize (.obj y)) p) := by
    intro o1 o2 p q hp
    simp only
    rw [idx_eq hW hp (.obj hx)]
    cases idx q.memo (.obj y) with
    | some i => exact .ok hp
    | none => exact acts_then (acts_emit _) (acts_memoize (.obj hx)) p q hp
  split
  · exact acts_emit _
  · split
    · exact acts_then (acts_saveAll hsv h) (last _ _)
    · exact acts_then (acts_emit _) (acts_then (acts_saveAll hsv h) (last [.popMark] _))

theorem acts_saveFset (hW : Programs R W W') {x y es fs} (hx : R x y) (h : Lists (Vals R) es fs) :
    Acts R (saveFset sv x es) (saveFset sv' y fs) := by
  unfold saveFset
  refine acts_then (acts_emit _) (acts_then (acts_saveAll hsv h) ?_)
  intro p q hp
  simp only
  rw [idx_eq hW hp (.obj hx)]
  cases idx q.memo (.obj y) with
  | some i => exact .ok hp
  | none => exact acts_then (acts_emit _) (acts_memoize (.obj hx)) p q hp

theorem acts_saveState {s s'} (h : Opts (States R) s s') : Acts R (saveState sv s) (saveState sv' s') := by
  cases h with
  | none => exact acts_emit _
  | some h =>
    cases h with
    | «opaque» h => exact acts_then (hsv _ _ h) (acts_emit _)
    | attrs h => exact acts_then (acts_saveDict hsv .anon h) (acts_emit _)

omit hsv in
theorem args_vals {as bs} (h : Lists (Vals R) as bs) : Lists (Args R) (as.map .val) (bs.map .val) := h.map fun _ _ h => .val h

theorem acts_saveNode (hW : Programs R W W') {x y c c' l l' d d' s s'} (hx : R x y) (hc : Cons R c c') (hl : Lists (Vals R) l l')
    (hd : Lists (Pairs R) d d') (hs : Opts (States R) s s') : Acts R (saveNode sv x c l d s) (saveNode sv' y c' l' d' s') := by
  have rest := acts_then (acts_memoOrGet hW hx) (acts_then (acts_batchAppends hsv hl) (acts_then (acts_batchSetitems hsv hd)
    (acts_saveState hsv hs)))
  cases hc with
  | list => exact acts_then (acts_emit _) (acts_then (acts_memoize (.obj hx)) (acts_batchAppends hsv hl))
  | dict => exact acts_then (acts_emit _) (acts_then (acts_memoize (.obj hx)) (acts_batchSetitems hsv hd))
  | set => exact acts_then (acts_emit _) (acts_then (acts_memoize (.obj hx)) (acts_batchAdds hsv hl))
  | red hf ha => exact acts_then (acts_callReduce hsv hf (args_vals ha)) rest
  | newobj hf ha => exact acts_then (hsv _ _ hf) (acts_then (acts_anonTuple hsv (args_vals ha)) (acts_then (acts_emit _) rest))

theorem acts_runReds (hW : Programs R W W') {l l'} (h : Lists (Reds R) l l') : Acts R (runReds W sv l) (runReds W' sv' l') := by
  induction h with
  | nil => exact acts_emit _
  | cons ha _ ih =>
    refine acts_then ?_ ih
    cases ha with
    | setCell hx hv =>
      exact acts_then (acts_callReduce hsv hW.setattr (.cons (.val (.ref hx)) (.cons (.val hW.contents) (.cons (.val hv) .nil)))) (acts_emit _)
    | setQual hx hv =>
      exact acts_then (acts_callReduce hsv hW.setattr (.cons (.val (.ref hx)) (.cons (.val hW.qualname) (.cons (.val hv) .nil)))) (acts_emit _)
    | @setItems f g _ _ hx hc =>
      simp only [runRed, hc.isEmpty]
      split
      · exact acts_emit _
      · intro p q hp
        simp only
        rw [idx_eq hW hp (.globs hx)]
        cases idx q.memo (.globs g) with
        | none => exact .error hp
        | some i => exact acts_then (acts_emit _) (acts_then (acts_batchSetitems hsv hc) (acts_emit _)) p q hp
    | setDead hx hc =>
      simp only [runRed, hc.isEmpty]
      split
      · exact acts_emit _
      · intro p q hp; exact .error hp

omit hsv in
theorem acts_saveGlobal (hW : Programs R W W') {x y} (hx : R x y) : Acts R (saveGlobal W x) (saveGlobal W' y) := by
  unfold saveGlobal
  rw [hW.names x y hx]
  cases W'.byName y with
  | some a => exact acts_then (acts_emit _) (acts_memoize (.obj hx))
  | none => intro p q hp; exact .error hp

theorem acts_withPost (hW : Programs R W W') {x y l l' b b'} (hx : R x y) (hl : Lists (Reds R) l l') (hb : Acts R b b') :
    Acts R (withPost W sv x l b) (withPost W' sv' y l' b') := by
  intro p q hp
  unfold withPost
  rw [onStack_eq hW hp hx]
  split
  · exact acts_saveGlobal hW hx p q hp
  · have e1 := hb _ _ (show Picklers R { p with post := p.post ++ [(x, l)] } { q with post := q.post ++ [(y, l')] } from
      ⟨hp.memo, hp.post.append (.cons ⟨hx, hl⟩ .nil)⟩)
    revert e1
    generalize b { p with post := p.post ++ [(x, l)] } = u
    generalize b' { q with post := q.post ++ [(y, l')] } = v
    intro e1
    cases e1 with
    | error hp => exact .error hp
    | @ok p1 q1 o hp1 =>
      simp only
      have hf : Opts (Posts R) (p1.post.find? (fun z => decide (z.1 = x))) (q1.post.find? (fun z => decide (z.1 = y))) :=
        hp1.post.find fun _ _ hab => addr_eq hW hab.1 hx
      have hred : Lists (Reds R) ((p1.post.find? (fun z => decide (z.1 = x))).map (·.2) |>.getD [])
          ((q1.post.find? (fun z => decide (z.1 = y))).map (·.2) |>.getD []) := by
        revert hf
        generalize p1.post.find? (fun z => decide (z.1 = x)) = u
        generalize q1.post.find? (fun z => decide (z.1 = y)) = v
        intro hf
        cases hf with
        | none => exact .nil
        | some h => exact h.2
      have hfil : Lists (Posts R) (p1.post.filter (fun z => decide (z.1 ≠ x))) (q1.post.filter (fun z => decide (z.1 ≠ y))) :=
        hp1.post.filter fun a b hab => by
          have := addr_eq hW hab.1 hx
          simp only [ne_eq, decide_not, this]
      have e2 := acts_runReds hsv hW hred.reverse _ _ (show Picklers R { p1 with post := p1.post.filter (fun z => decide (z.1 ≠ x)) }
        { q1 with post := q1.post.filter (fun z => decide (z.1 ≠ y)) } from ⟨hp1.memo, hfil⟩)
      revert e2
      generalize runReds W sv _ _ = u
      generalize runReds W' sv' _ _ = v
      intro e2
      cases e2 with
      | error hp => exact .error hp
      | ok hp => exact .ok hp

omit hsv in
theorem posts_addRed (hW : Programs R W W') {x y r r' l l'} (hx : R x y) (hr : Reds R r r') (h : Lists (Posts R) l l') :
    Lists (Posts R) (addRed x r l) (addRed y r' l') := by
  unfold addRed
  refine h.map ?_
  rintro ⟨a, la⟩ ⟨b, lb⟩ ⟨h1, h2⟩
  have := addr_eq hW h1 hx
  simp only at this ⊢
  by_cases e : a = x
  · have e' : b = y := by simpa [e] using this
    simp only [e, e', if_true]
    exact ⟨hx, h2.append (.cons hr .nil)⟩
  · have e' : ¬ b = y := by simpa [e] using this
    simp only [e, e', if_false]
    exact ⟨h1, h2⟩

omit hsv in
theorem head_same {p q : P} (hp : Picklers R p q) : Opts R (p.post.head?.map (·.1)) (q.post.head?.map (·.1)) := by
  have h := hp.post
  revert h
  generalize p.post = a
  generalize q.post = b
  intro h
  cases h with
  | nil => exact .none
  | cons ha _ => exact .some ha.1

omit hsv in
theorem cellHost_same (hW : Programs R W W') {p q : P} (hp : Picklers R p q) {v w} (hv : Vals R v w) : Opts R (cellHost p v) (cellHost q w) := by
  cases hv with
  | atom a => exact head_same hp
  | ref h =>
    simp only [cellHost, onStack_eq hW hp h]
    split
    · exact .some h
    · exact head_same hp

theorem acts_saveCell (hW : Programs R W W') {x y c c'} (hx : R x y) (hc : Opts (Vals R) c c') : Acts R (saveCell W sv x c) (saveCell W' sv' y c') := by
  cases hc with
  | none =>
    exact acts_then (acts_callReduce hsv hW.createCell (.cons (.val hW.cellEmpty) .nil)) (acts_then (acts_memoOrGet hW hx)
      (acts_then (acts_callReduce hsv hW.delattr (.cons (.val (.ref hx)) (.cons (.val hW.contents) .nil))) (acts_emit _)))
  | @some v w hv =>
    intro p q hp
    simp only [saveCell]
    have hh := cellHost_same hW hp hv
    revert hh
    generalize cellHost p v = a
    generalize cellHost q w = b
    intro hh
    cases hh with
    | none =>
      exact acts_then (acts_callReduce hsv hW.createCell (.cons (.val hv) .nil)) (acts_memoOrGet hW hx) p q hp
    | some hy =>
      have e := acts_then (acts_callReduce hsv hW.createCell (.cons (.val (.atom .none)) .nil)) (acts_memoOrGet hW hx) p q hp
      revert e
      simp only
      generalize (_ ;; _) p = u
      generalize (_ ;; _) q = v
      intro e
      cases e with
      | error hp => exact .error hp
      | ok hp => exact .ok ⟨hp.memo, posts_addRed hW hy (.setCell hx hv) hp.post⟩

theorem acts_saveFuncState {a a' s s'} (ha : Lists (Pairs R) a a') (hs : Lists (Pairs R) s s') :
    Acts R (saveFuncState sv a s) (saveFuncState sv' a' s') := by
  unfold saveFuncState
  rw [hs.isEmpty]
  split
  · exact acts_then (acts_saveDict hsv .anon ha) (acts_emit _)
  · exact acts_then (acts_saveDict hsv .anon ha) (acts_then (acts_saveDict hsv .anon hs) (acts_then (acts_emit _)
      (acts_then (acts_memoize .anon) (acts_emit _))))

omit hsv in
theorem mem_valueAddrs (hW : Programs R W W') {x y} (hx : R x y) {c d} (h : Lists (Pairs R) c d) :
    decide (x ∈ valueAddrs c) = decide (y ∈ valueAddrs d) := by
  induction h with
  | nil => rfl
  | @cons a b as bs ha _ ih =>
    obtain ⟨ka, va⟩ := a
    obtain ⟨kb, vb⟩ := b
    have hv := ha.2
    simp only at hv
    cases hv with
    | atom a =>
      simp only [valueAddrs, List.filterMap_cons] at ih ⊢
      exact ih
    | @ref u v h =>
      have e := addr_eq hW hx h
      simp only [valueAddrs, List.filterMap_cons, List.mem_cons] at ih ⊢
      by_cases h1 : x = u
      · have h2 : y = v := by simpa [h1] using e
        simp [h1, h2]
      · have h2 : ¬ y = v := by simpa [h1] using e
        simp only [h1, h2, false_or]; exact ih

theorem acts_saveFunc (hW : Programs R W W') {x y c c' g g' n n' d d' k k' a a' s s'} (hx : R x y) (hc : Vals R c c') (hg : Globals R g g')
    (hn : Vals R n n') (hd : Vals R d d') (hk : Vals R k k') (ha : Lists (Pairs R) a a') (hs : Lists (Pairs R) s s') :
    Acts R (saveFunc W sv x c g n d k a s) (saveFunc W' sv' y c' g' n' d' k' a' s') := by
  have body : ∀ u v, Args R u v → Acts R
      (callReduce sv W.createFunction [.val c, u, .val n, .val d, .val k] ;; memoOrGet x ;; saveFuncState sv a s)
      (callReduce sv' W'.createFunction [.val c', v, .val n', .val d', .val k'] ;; memoOrGet y ;; saveFuncState sv' a' s') := by
    intro u v h
    exact acts_then (acts_callReduce hsv hW.createFunction (.cons (.val hc) (.cons h (.cons (.val hn) (.cons (.val hd) (.cons (.val hk) .nil))))))
      (acts_then (acts_memoOrGet hW hx) (acts_saveFuncState hsv ha hs))
  cases hg with
  | byRef hv => exact acts_withPost hsv hW hx .nil (body _ _ (.val hv))
  | @copied i j co co' hi hco =>
    have hb := body _ _ (.dict (.globs hx) hi)
    intro p q hp
    simp only [saveFunc]
    have hf : Opts (Posts R) (p.post.find? (fun e => decide (e.1 ∈ valueAddrs co))) (q.post.find? (fun e => decide (e.1 ∈ valueAddrs co'))) :=
      hp.post.find fun _ _ hab => mem_valueAddrs hW hab.1 hco
    revert hf
    generalize p.post.find? (fun e => decide (e.1 ∈ valueAddrs co)) = u
    generalize q.post.find? (fun e => decide (e.1 ∈ valueAddrs co')) = v
    intro hf
    cases hf with
    | none => exact acts_withPost hsv hW hx (.cons (.setItems hx hco) .nil) hb p q hp
    | @some e f hef =>
      obtain ⟨e1, e2⟩ := e
      obtain ⟨f1, f2⟩ := f
      simp only
      refine acts_withPost hsv hW hx .nil hb _ _ ⟨hp.memo, posts_addRed hW hef.1 ?_ hp.post⟩
      rw [onStack_eq hW hp hx]
      split
      · exact .setDead hx hco
      · exact .setItems hx hco

theorem acts_saveStep (hW : Programs R W W') {v w} (hv : Vals R v w) : Acts R (saveStep W sv v) (saveStep W' sv' w) := by
  cases hv with
  | atom a => exact acts_emit _
  | @ref x y hx =>
    intro p q hp
    simp only [saveStep]
    rw [idx_eq hW hp (.obj hx)]
    cases idx q.memo (.obj y) with
    | some i => exact acts_emit _ p q hp
    | none =>
      simp only
      have ho := hW.objs x y hx
      revert ho
      generalize W.H x = o
      generalize W'.H y = o'
      intro ho
      cases ho with
      | leaf a => exact acts_then (acts_emit _) (acts_memoize (.obj hx)) p q hp
      | tuple h => exact acts_saveTuple hsv hW hx h p q hp
      | fset h => exact acts_saveFset hsv hW hx h p q hp
      | node h1 h2 h3 h4 => exact acts_saveNode hsv hW hx h1 h2 h3 h4 p q hp
      | cell h => exact acts_saveCell hsv hW hx h p q hp
      | func h1 h2 h3 h4 h5 h6 h7 => exact acts_saveFunc hsv hW hx h1 h2 h3 h4 h5 h6 h7 p q hp
      | cls h1 h2 h3 h4 h5 =>
        exact acts_withPost hsv hW hx (.cons (.setQual hx h5) .nil) (acts_then (acts_callReduce hsv hW.createType
          (.cons (.val h1) (.cons (.val h2) (.cons (.val h3) (.cons (.dict .anon h4) .nil))))) (acts_memoOrGet hW hx)) p q hp
      | bad => exact .error hp

omit hsv in
theorem acts_save (hW : Programs R W W') (n : Nat) : ∀ v w, Vals R v w → Acts R (save W n v) (save W' n w) := by
  induction n with
  | zero => intro v w _ p q hp; exact .error hp
  | succ n ih => intro v w hv; exact acts_saveStep ih hW hv

end Same

/-! ### C103 -/

/-- C103: the same object, at other places in memory and with anything else around it, gives the same pickle, or the same exception. -/
theorem C103_same_pickle (R : Addr → Addr → Prop) (W W' : World) (hW : Same.Programs R W W') (n : Nat) (root root' : Val)
    (h : Same.Vals R root root') : dumps W n root = dumps W' n root' := by
  unfold dumps
  have e := Same.acts_save hW n root root' h ⟨[], []⟩ ⟨[], []⟩ ⟨.nil, .nil⟩
  revert e
  generalize save W n root ⟨[], []⟩ = a
  generalize save W' n root' ⟨[], []⟩ = b
  intro e
  cases e with
  | ok _ => rfl
  | error _ => rfl

/-- C103 for the bytes of the pickle: with the same protocol, and the same choices of the pickler for strings and frames. -/
theorem C103_same_bytes (R : Addr → Addr → Prop) (W W' : World) (hW : Same.Programs R W W') (how : Wire.How) (n : Nat) (root root' : Val)
    (h : Same.Vals R root root') : Wire.dumpBytes how W n root = Wire.dumpBytes how W' n root' := by
  unfold Wire.dumpBytes
  rw [C103_same_pickle R W W' hW n root root' h]

/-! #### what cannot be reached does not matter -/

/-- what can be reached from the object or from dill's own helper functions and strings -/
def Relevant (W : World) (root : Val) (x : Addr) : Prop :=
  ∃ v ∈ [root, W.createFunction, W.createCell, W.createType, W.cellEmpty, W.setattr, W.delattr, W.contents, W.qualname], Spec.Reaches W v x

namespace Same

variable {S : Addr → Prop}

theorem vals_refl {v : Val} (h : ∀ y, v = .ref y → S y) : Vals (fun x y => x = y ∧ S x) v v := by
  cases v with
  | atom a => exact .atom a
  | ref x => exact .ref ⟨rfl, h x rfl⟩

theorem lists_refl {α : Type} {r : α → α → Prop} : ∀ {l : List α}, (∀ a ∈ l, r a a) → Lists r l l
  | [], _ => .nil
  | a :: l, h => .cons (h a (by simp)) (lists_refl fun b hb => h b (by simp [hb]))

theorem vlists_refl {l : List Val} (h : ∀ y, .ref y ∈ l → S y) : Lists (Vals (fun x y => x = y ∧ S x)) l l :=
  lists_refl fun v hv => vals_refl fun y e => h y (e ▸ hv)

theorem plists_refl {l : List (Val × Val)} (h : ∀ y, .ref y ∈ Spec.kvVals l → S y) : Lists (Pairs (fun x y => x = y ∧ S x)) l l :=
  lists_refl fun p hp => ⟨vals_refl fun y e => h y (by simp only [Spec.kvVals, List.mem_flatMap]; exact ⟨p, hp, by simp [e]⟩),
    vals_refl fun y e => h y (by simp only [Spec.kvVals, List.mem_flatMap]; exact ⟨p, hp, by simp [e]⟩)⟩

theorem objs_refl {o : SObj} (h : ∀ y, .ref y ∈ Spec.refs o → S y) : Objs (fun x y => x = y ∧ S x) o o := by
  cases o with
  | leaf a => exact .leaf a
  | tuple es => exact .tuple (vlists_refl h)
  | fset es => exact .fset (vlists_refl h)
  | node c l d s =>
    simp only [Spec.refs, List.mem_append] at h
    refine .node ?_ (vlists_refl fun y hy => h y (by simp [hy])) (plists_refl fun y hy => h y (by simp [hy])) ?_
    · cases c with
      | list => exact .list
      | dict => exact .dict
      | set => exact .set
      | red f as => exact .red (vals_refl fun y e => h y (by simp [Spec.conRefs, e])) (vlists_refl fun y e => h y (by simp [Spec.conRefs, e]))
      | newobj f as => exact .newobj (vals_refl fun y e => h y (by simp [Spec.conRefs, e])) (vlists_refl fun y e => h y (by simp [Spec.conRefs, e]))
    · cases s with
      | none => exact .none
      | some st =>
        cases st with
        | «opaque» v => exact .some (.opaque (vals_refl fun y e => h y (by simp [Spec.stRefs, e])))
        | attrs es => exact .some (.attrs (plists_refl fun y e => h y (by simp [Spec.stRefs, e])))
  | cell c =>
    cases c with
    | none => exact .cell .none
    | some v => exact .cell (.some (vals_refl fun y e => h y (by simp [Spec.refs, e])))
  | func c g n d k a s =>
    simp only [Spec.refs, List.mem_append] at h
    refine .func (vals_refl fun y e => h y (by simp [e])) ?_ (vals_refl fun y e => h y (by simp [e])) (vals_refl fun y e => h y (by simp [e]))
      (vals_refl fun y e => h y (by simp [e])) (plists_refl fun y e => h y (by simp [e])) (plists_refl fun y e => h y (by simp [e]))
    cases g with
    | byRef v => exact .byRef (vals_refl fun y e => h y (by simp [e]))
    | copied i co =>
      exact .copied (plists_refl fun y e => h y (by simp [e])) (plists_refl fun y e => h y (by simp [e]))
  | cls m n b d q =>
    simp only [Spec.refs, List.mem_append] at h
    exact .cls (vals_refl fun y e => h y (by simp [e])) (vals_refl fun y e => h y (by simp [e])) (vals_refl fun y e => h y (by simp [e]))
      (plists_refl fun y e => h y (by simp [e])) (vals_refl fun y e => h y (by simp [e]))
  | bad => exact .bad

end Same

/-- C103: objects that cannot be reached may be anything: changing, adding or dropping them does not change the pickle. -/
theorem C103_unreachable_irrelevant (W W' : World) (root : Val) (n : Nat)
    (hH : ∀ x, Relevant W root x → W'.H x = W.H x) (hN : ∀ x, Relevant W root x → W'.byName x = W.byName x)
    (helpers : W'.createFunction = W.createFunction ∧ W'.createCell = W.createCell ∧ W'.createType = W.createType ∧
      W'.cellEmpty = W.cellEmpty ∧ W'.setattr = W.setattr ∧ W'.delattr = W.delattr ∧ W'.contents = W.contents ∧ W'.qualname = W.qualname) :
    dumps W' n root = dumps W n root := by
  obtain ⟨h1, h2, h3, h4, h5, h6, h7, h8⟩ := helpers
  have hv : ∀ v ∈ [root, W.createFunction, W.createCell, W.createType, W.cellEmpty, W.setattr, W.delattr, W.contents, W.qualname],
      Same.Vals (fun x y => x = y ∧ Relevant W root x) v v :=
    fun v hv => Same.vals_refl fun y e => ⟨v, hv, .here e⟩
  refine (C103_same_pickle (fun x y => x = y ∧ Relevant W root x) W W' ⟨?_, ?_, ?_, ?_, ?_, ?_, ?_, ?_, ?_, ?_, ?_, ?_⟩ n root root
    (hv root (by simp))).symm
  · rintro x y y' ⟨rfl, _⟩ ⟨rfl, _⟩; rfl
  · rintro x x' y ⟨rfl, _⟩ ⟨rfl, _⟩; rfl
  · rintro x y ⟨rfl, hx⟩
    rw [hH x hx]
    refine Same.objs_refl fun y hy => ?_
    obtain ⟨v, hv, hr⟩ := hx
    exact ⟨v, hv, .step hr hy⟩
  · rintro x y ⟨rfl, hx⟩; exact (hN x hx).symm
  · rw [h1]; exact hv _ (by simp)
  · rw [h2]; exact hv _ (by simp)
  · rw [h3]; exact hv _ (by simp)
  · rw [h4]; exact hv _ (by simp)
  · rw [h5]; exact hv _ (by simp)
  · rw [h6]; exact hv _ (by simp)
  · rw [h7]; exact hv _ (by simp)
  · rw [h8]; exact hv _ (by simp)

/-! #### what does matter: the order in which sets and copied globals are iterated -/

local instance {ε α : Type} [DecidableEq ε] [DecidableEq α] : DecidableEq (Except ε α) := fun a b =>
  match a, b with
  | .ok x, .ok y => if h : x = y then isTrue (by rw [h]) else isFalse (by intro e; cases e; exact h rfl)
  | .error x, .error y => if h : x = y then isTrue (by rw [h]) else isFalse (by intro e; cases e; exact h rfl)
  | .ok _, .error _ => isFalse (by intro e; cases e)
  | .error _, .ok _ => isFalse (by intro e; cases e)

/-- a program with one object that is not a helper -/
def oneObj (a : Addr) (o : SObj) (rest : Addr → SObj := fun _ => .bad) : World where
  H := fun x => if x = a then o else rest x
  createFunction := .atom aCreateFunction
  createCell := .atom aCreateCell
  createType := .atom aCreateType
  cellEmpty := .atom aCellEmpty
  setattr := .atom aSetattr
  delattr := .atom aDelattr
  contents := .atom aContents
  qualname := .atom aQualname
  byName := fun _ => none

/-- A set whose elements are iterated in another order (another hash seed, other addresses of the elements, another history of the set) has
another pickle: equal objects need not have equal pickles. -/
theorem C103_set_order_matters : ∃ W W' : World, ∃ x, (∃ a b, W.H x = .node .set [a, b] [] none ∧ W'.H x = .node .set [b, a] [] none) ∧
    (∀ y, y ≠ x → W.H y = W'.H y) ∧ (∃ ops, dumps W 5 (.ref x) = .ok ops) ∧ dumps W 5 (.ref x) ≠ dumps W' 5 (.ref x) := by
  refine ⟨oneObj 1 (.node .set [.atom (.str "a"), .atom (.str "b")] [] none), oneObj 1 (.node .set [.atom (.str "b"), .atom (.str "a")] [] none), 1,
    ⟨_, _, rfl, rfl⟩, ?_, ⟨[.emptySet, .memoize, .mark, .push (.str "a"), .push (.str "b"), .additems], by decide +kernel⟩, by decide +kernel⟩
  intro y hy; simp [oneObj, hy]

/-- With `recurse`, the globals a function uses are copied in the order in which a set of their names is iterated (`globalvars`,
/repo/dill/detect.py:168-219), which depends on the hash seed of the process: the same function has different pickles in different runs. -/
theorem C103_recurse_order_matters : ∃ W W' : World, ∃ x, ∃ code i a b n d k at' sl, W.H x = .func code (.copied i [a, b]) n d k at' sl ∧
    W'.H x = .func code (.copied i [b, a]) n d k at' sl ∧ (∀ y, y ≠ x → W.H y = W'.H y) ∧ (∃ ops, dumps W 9 (.ref x) = .ok ops) ∧
    dumps W 9 (.ref x) ≠ dumps W' 9 (.ref x) := by
  let f (c : List (Val × Val)) : SObj := .func (.atom (.str "code")) (.copied [(.atom (.str "__name__"), .atom (.str "m"))] c)
    (.atom (.str "f")) (.atom .none) (.atom .none) [] []
  let a : Val × Val := (.atom (.str "a"), .atom (.int 1))
  let b : Val × Val := (.atom (.str "b"), .atom (.int 2))
  refine ⟨oneObj 1 (f [a, b]), oneObj 1 (f [b, a]), 1, _, _, _, _, _, _, _, _, _, rfl, rfl, ?_, ?_, by decide +kernel⟩
  · intro y hy; simp [oneObj, hy]
  · have : (dumps (oneObj 1 (f [a, b])) 9 (.ref 1)).toOption.isSome := by decide +kernel
    cases h : dumps (oneObj 1 (f [a, b])) 9 (.ref 1) with
    | ok ops => exact ⟨ops, rfl⟩
    | error e => rw [h] at this; simp [Except.toOption] at this

/-! #### a concrete case: a recursive closure, at two places -/

/-- `def f(): return f` inside a function: the function at `p`, its closure tuple at `q`, its cell at `r` -/
def closureAt (p q r : Addr) : Addr → SObj := fun x =>
  if x = p then .func (.atom (.str "code")) (.byRef (.atom (.glob "m" "__dict__"))) (.atom (.str "f")) (.atom .none) (.ref q) [] []
  else if x = q then .tuple [.ref r]
  else if x = r then .cell (some (.ref p))
  else .leaf (.int x)

def closureW (p q r : Addr) : World := { oneObj 0 .bad with H := closureAt p q r }

theorem closure_same : Same.Programs (fun x y => (x = 1 ∧ y = 70) ∨ (x = 2 ∧ y = 50) ∨ (x = 3 ∧ y = 60)) (closureW 1 2 3) (closureW 70 50 60) where
  once := by rintro x y y' h h'; grind
  once' := by rintro x y y' h h'; grind
  objs := by
    rintro x y (⟨rfl, rfl⟩ | ⟨rfl, rfl⟩ | ⟨rfl, rfl⟩)
    · exact .func (.atom _) (.byRef (.atom _)) (.atom _) (.atom _) (.ref (by simp)) .nil .nil
    · exact .tuple (.cons (.ref (by simp)) .nil)
    · exact .cell (.some (.ref (by simp)))
  names := fun _ _ _ => rfl
  createFunction := .atom _
  createCell := .atom _
  createType := .atom _
  cellEmpty := .atom _
  setattr := .atom _
  delattr := .atom _
  contents := .atom _
  qualname := .atom _

example : dumps (closureW 1 2 3) 20 (.ref 1) = dumps (closureW 70 50 60) 20 (.ref 70) :=
  C103_same_pickle _ _ _ closure_same 20 _ _ (.ref (by simp))
example : (dumps (closureW 1 2 3) 20 (.ref 1)).toOption.isSome := by decide +kernel
/-- objects elsewhere in memory do not matter: here all others differ -/
example : dumps (closureW 1 2 3) 20 (.ref 1) ≠ dumps (closureW 1 2 3) 20 (.ref 4) := by decide +kernel

end Verif.Core
