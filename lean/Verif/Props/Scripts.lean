import Verif.Model.Scripts
import Mathlib.Data.List.Forall2
/-!
C114: the command line tools show what they are asked to show and change no file but the one they announce.  False in four ways: undill shows only the first object of
each file and stops at the first bad file; get_objgraph draws over a pickle whose name ends in .png; get_gprof destroys a file that is called as its temporary
one, and leaves that behind if the object cannot be pickled.
-/
set_option linter.unusedSimpArgs false
namespace Verif.Scripts

/-! ### specification -/

/-- the objects that are in the bytes of a file, to its end -/
inductive Holds {Obj : Type} (load : Bytes → Option (Obj × Bytes)) : Bytes → List Obj → Prop
  | none : Holds load [] []
  | more {b o r os} : load b = some (o, r) → Holds load r os → Holds load b (o :: os)

/-- the object of the first pickle in a file -/
def FirstIn {Obj : Type} (load : Bytes → Option (Obj × Bytes)) (fs : Files) (f : Name) (o : Obj) : Prop :=
  ∃ b r, fs f = some b ∧ load b = some (o, r)

/-- C114 in full, for undill: given files that hold objects, it prints all of them, in order. -/
def C114_undill_full : Prop := ∀ (load : Bytes → Option (Nat × Bytes)) (fs : Files) (argv : List Name) (os : List (List Nat)),
  List.Forall₂ (fun f l => ∃ b, fs f = some b ∧ Holds load b l) argv os → undill load fs argv = (os.flatten, true)

/-- C114 in full, for get_objgraph: the file it is given is as before. -/
def C114_objgraph_full : Prop := ∀ (types : Name → Option Nat) (load : Bytes → Option (Nat × Bytes)) (draw : Option (Nat → Bytes)) (f : Name) (fs : Files),
  (getObjgraph types load draw [f] fs).1 f = fs f

/-- C114 in full, for get_gprof: every file but `<type>.call.png` is as before. -/
def C114_gprof_full : Prop := ∀ (r : Run) (argv : List Name) (fs : Files) (t f : Name), r.typeName = some t → f ≠ t ++ ".call.png".toList →
  (getGprof r argv fs).1 f = fs f

/-- the last component of the path `p` without the extension `ext`: `dir` is empty or ends in a slash, and there is something before the
dot that is not a dot (.png and ..png are names without an extension) -/
def HasExt (p : Name) (ext : String) : Prop :=
  ∃ dir base, p = dir ++ base ++ ext.toList ∧ (dir = [] ∨ ∃ d, dir = d ++ ['/']) ∧ '/' ∉ base ∧ ∃ c ∈ base, c ≠ '.'

/-! ### undill -/

/-- C114, undill, exactly: it prints the first object of each file, in the order of the arguments, up to the first file that is not there or does
not load; and it ends well exactly if there is no such file. -/
theorem C114_undill_exact {Obj : Type} (load : Bytes → Option (Obj × Bytes)) (fs : Files) (argv : List Name) :
    ∃ done rest, argv = done ++ rest ∧ List.Forall₂ (FirstIn load fs) done (undill load fs argv).1 ∧
      ((undill load fs argv).2 = true ↔ rest = []) ∧ ∀ f, rest.head? = some f → ∀ o, ¬ FirstIn load fs f o := by
  induction argv with
  | nil => exact ⟨[], [], rfl, .nil, by simp [undill], by simp⟩
  | cons f argv ih =>
    simp only [undill]
    split
    · next h => exact ⟨[], f :: argv, rfl, .nil, by simp, by rintro g hg o ⟨b, r, h1, -⟩; simp at hg; rw [← hg, h] at h1; cases h1⟩
    · next b h =>
      split
      · next hl =>
        exact ⟨[], f :: argv, rfl, .nil, by simp, by
          rintro g hg o ⟨b', r, h1, h2⟩; simp at hg; rw [← hg, h] at h1; cases h1; rw [hl] at h2; cases h2⟩
      · next o r hl =>
        obtain ⟨done, rest, rfl, h2, h3, h4⟩ := ih
        exact ⟨f :: done, rest, rfl, .cons ⟨b, r, h, hl⟩ h2, h3, h4⟩

/-- C114 for undill, for files with one object each: all are printed, in order. -/
theorem C114_undill_partial {Obj : Type} (load : Bytes → Option (Obj × Bytes)) (fs : Files) (argv : List Name) (os : List (List Obj))
    (h : List.Forall₂ (fun f l => ∃ b, fs f = some b ∧ Holds load b l) argv os) (h1 : ∀ l ∈ os, l.length = 1) :
    undill load fs argv = (os.flatten, true) := by
  induction h with
  | nil => rfl
  | cons hh _ ih =>
    rename_i f l fl os' _
    obtain ⟨b, e, hb⟩ := hh
    have hl := h1 l (by simp)
    cases hb with
    | none => simp at hl
    | more e2 hr =>
      rename_i o r os2
      simp at hl; subst hl
      simp only [undill, e, e2, ih (fun l' hl' => h1 l' (by simp [hl']))]
      simp

/-- one byte is one object -/
def byteLoad : Bytes → Option (Nat × Bytes)
  | [] => none
  | b :: r => some (b.toNat, r)

/-- C114 is false of undill: of a file with two objects it shows one. -/
theorem C114_undill_full_false : ¬ C114_undill_full := by
  intro h
  have := h byteLoad (fun _ => some [1, 2]) [['f']] [[1, 2]] (.cons ⟨[1, 2], rfl, .more rfl (.more rfl .none)⟩ .nil)
  revert this; decide

/-! ### get_objgraph -/

theorem rpos_notin {c : Char} {p : Name} (h : c ∉ p) : rpos c p = 0 := by
  unfold rpos
  rw [List.idxOf_eq_length (by simpa using h)]; simp

theorem rpos_last {c : Char} (a : Name) {b : Name} (h : c ∉ b) : rpos c (a ++ c :: b) = a.length + 1 := by
  unfold rpos
  have h1 : ¬ c ∈ List.reverse b := by simpa using h
  rw [List.reverse_append, List.reverse_cons, List.append_assoc, List.idxOf_append, if_neg h1]
  simp only [List.length_append, List.length_cons, List.length_reverse, List.cons_append, List.nil_append, List.idxOf_cons_self]
  omega

theorem last_split {c : Char} {p : Name} (h : c ∈ p) : ∃ a b, p = a ++ c :: b ∧ c ∉ b := by
  induction p with
  | nil => cases h
  | cons x p ih =>
    by_cases hp : c ∈ p
    · obtain ⟨a, b, rfl, hb⟩ := ih hp
      exact ⟨x :: a, b, rfl, hb⟩
    · rcases List.mem_cons.1 h with rfl | h
      · exact ⟨[], p, rfl, hp⟩
      · exact absurd h hp

theorem splitext_append (p : Name) : (splitext p).1 ++ (splitext p).2 = p := by
  unfold splitext
  simp only
  split
  · simp
  · simp

theorem splitext_png (p : Name) : (splitext p).1 ++ png = p ↔ HasExt p ".png" := by
  have hpng : ".png".toList = '.' :: ['p', 'n', 'g'] := rfl
  constructor
  · intro h
    have h2 : (splitext p).2 = png := List.append_cancel_left ((splitext_append p).trans h.symm)
    unfold splitext at h h2
    simp only at h h2
    split at h2
    · next hc =>
      rw [if_pos hc] at h
      simp only at h h2
      obtain ⟨hlt, hany⟩ := hc
      obtain ⟨c, hc1, hc2⟩ := List.any_eq_true.1 hany
      generalize hr : p.take (rpos '.' p - 1) = r at *
      have hsep : r.length ≥ rpos '/' p := by
        rw [← hr, List.length_take]
        have : rpos '.' p ≤ p.length := by unfold rpos; omega
        omega
      refine ⟨r.take (rpos '/' p), r.drop (rpos '/' p), by rw [List.take_append_drop, hpng]; exact h.symm, ?_, ?_, c, hc1, by simpa using hc2⟩
      · by_cases hs : '/' ∈ p
        · obtain ⟨a, b, e, hb⟩ := last_split hs
          have hrp : rpos '/' p = a.length + 1 := by rw [e]; exact rpos_last a hb
          right
          refine ⟨a, ?_⟩
          rw [← List.take_append_of_le_length (l₂ := png) (by omega), h, hrp]
          conv => lhs; rw [e]
          rw [show a ++ '/' :: b = (a ++ ['/']) ++ b by simp, List.take_left' (by simp)]
        · left; rw [rpos_notin hs]; rfl
      · intro hs
        by_cases hp : '/' ∈ p
        · obtain ⟨a, b, e, hb⟩ := last_split hp
          have hrp : rpos '/' p = a.length + 1 := by rw [e]; exact rpos_last a hb
          have : '/' ∈ p.drop (a.length + 1) := by
            rw [← h, ← hrp, List.drop_append_of_le_length hsep]
            exact List.mem_append_left _ hs
          rw [e, show a ++ '/' :: b = (a ++ ['/']) ++ b by simp, List.drop_left' (by simp)] at this
          exact hb this
        · exact hp (by rw [← h]; exact List.mem_append_left _ (List.mem_of_mem_drop hs))
    · cases h2
  · rintro ⟨dir, base, rfl, hd, hb, c, hc, hcd⟩
    have hdot : rpos '.' (dir ++ base ++ ".png".toList) = (dir ++ base).length + 1 := by
      rw [hpng]; exact rpos_last _ (by decide)
    have hsl : rpos '/' (dir ++ base ++ ".png".toList) = dir.length := by
      rcases hd with rfl | ⟨d, rfl⟩
      · rw [rpos_notin]; rfl
        simp [hb]
      · rw [show d ++ ['/'] ++ base ++ ".png".toList = d ++ '/' :: (base ++ ".png".toList) by simp]
        rw [rpos_last _ (by simp [hb])]; simp
    unfold splitext
    simp only [hdot, hsl]
    have htake : (dir ++ base ++ ".png".toList).take ((dir ++ base).length + 1 - 1) = dir ++ base := by
      rw [Nat.add_sub_cancel, List.take_left']; rfl
    rw [if_pos]
    · simp only [htake]; rfl
    · rw [htake]
      refine ⟨by rw [List.length_append]; omega, ?_⟩
      rw [List.drop_left' rfl, List.any_eq_true]
      exact ⟨c, hc, by simpa using hcd⟩

/-- C114, get_objgraph, exactly: the file it is given is as before, unless that is a pickle (its name is not the name of a type) whose name has the extension .png. -/
theorem C114_objgraph_partial {Obj : Type} (types : Name → Option Obj) (load : Bytes → Option (Obj × Bytes)) (draw : Option (Obj → Bytes)) (f : Name)
    (fs : Files) (h : types f ≠ none ∨ ¬ HasExt f ".png") : (getObjgraph types load draw [f] fs).1 f = fs f := by
  unfold getObjgraph
  simp only
  cases ht : types f with
  | some o =>
    simp only
    cases draw with
    | none => rfl
    | some d =>
      simp only [Files.put]
      rw [if_neg]
      intro e
      have := congrArg List.length e
      simp [png] at this
  | none =>
    rw [ht] at h
    have h' : ¬ HasExt f ".png" := h.resolve_left (by simp)
    cases hf : fs f with
    | none => simp [hf]
    | some b =>
      simp only
      cases hl : load b with
      | none => simp [hf]
      | some r =>
        simp only
        cases draw with
        | none => simp [hf]
        | some d =>
          simp only [Files.put]
          rw [if_neg (fun e => h' ((splitext_png f).1 e.symm)), hf]

/-- C114, get_objgraph, what it changes: no file but one.  For the name of a type this is `<type>.png`; for a pickle, the name of the pickle with its extension (if it has one)
replaced by .png.  What is drawn is that object. -/
theorem C114_objgraph_writes {Obj : Type} (types : Name → Option Obj) (load : Bytes → Option (Obj × Bytes)) (draw : Obj → Bytes) (t : Name)
    (fs : Files) :
    (∀ o, types t = some o → ∀ g, (getObjgraph types load (some draw) [t] fs).1 g = if g = t ++ ".png".toList then some (draw o) else fs g) ∧
    (∀ o, types t = none → FirstIn load fs t o → ∃ root ext, root ++ ext = t ∧ (ext = [] ∨ ext.head? = some '.' ∧ '/' ∉ ext ∧ '.' ∉ ext.tail) ∧
      ∀ g, (getObjgraph types load (some draw) [t] fs).1 g = if g = root ++ ".png".toList then some (draw o) else fs g) ∧
    (types t = none → (∀ o, ¬ FirstIn load fs t o) → getObjgraph types load (some draw) [t] fs = (fs, .traceback)) := by
  refine ⟨?_, ?_, ?_⟩
  · intro o h g
    simp only [getObjgraph, h, Files.put]; rfl
  · rintro o h ⟨b, r, h1, h2⟩
    refine ⟨(splitext t).1, (splitext t).2, splitext_append t, ?_, ?_⟩
    · unfold splitext
      simp only
      split
      · next hc =>
        right
        have hmem : '.' ∈ t := by
          apply Classical.byContradiction
          intro hn; rw [rpos_notin hn] at hc; omega
        obtain ⟨a, b, e, hb⟩ := last_split hmem
        have hrp : rpos '.' t = a.length + 1 := by rw [e]; exact rpos_last a hb
        have hdrop : t.drop (rpos '.' t - 1) = '.' :: b := by
          rw [hrp]; conv => lhs; rw [e]
          simp
        simp only [hdrop]
        refine ⟨rfl, ?_, hb⟩
        intro hs
        have hsb : '/' ∈ b := by simpa using hs
        obtain ⟨b1, b2, rfl, hb2⟩ := last_split hsb
        have : rpos '/' t = (a ++ '.' :: b1).length + 1 := by
          rw [e, show a ++ '.' :: (b1 ++ '/' :: b2) = (a ++ '.' :: b1) ++ '/' :: b2 by simp]; exact rpos_last _ hb2
        have hlt := hc.1
        rw [this, hrp, List.length_append, List.length_cons] at hlt
        omega
      · left; rfl
    · intro g
      simp only [getObjgraph, h, h1, h2, Files.put]; rfl
  · intro h hn
    simp only [getObjgraph, h]
    cases hf : fs t with
    | none => rfl
    | some b =>
      simp only
      cases hl : load b with
      | none => rfl
      | some r => exact absurd ⟨b, r.2, hf, hl⟩ (hn r.1)

/-- C114 is false of get_objgraph: a pickle called x.png is drawn over. -/
theorem C114_objgraph_full_false : ¬ C114_objgraph_full := by
  intro h
  have := h (fun _ => none) byteLoad (some fun _ => [0]) "x.png".toList (fun _ => some [1])
  revert this; decide

/-! ### get_gprof -/

/-- C114 for get_gprof, when dumps succeeds and no file has the name of its temporary one: every file but `<type>.call.png` is as before, and that is the graph. -/
theorem C114_gprof_partial (r : Run) (argv : List Name) (fs : Files) (t : Name) (ht : r.typeName = some t) (hd : r.dumpsRaises = false)
    (hp : fs (t ++ ".prof".toList) = none) :
    (∀ f, f ≠ t ++ ".call.png".toList → (getGprof r argv fs).1 f = fs f) ∧
    (argv ≠ [] → r.setupRaises = false → ∀ img, r.image = some img → (getGprof r argv fs).1 (t ++ ".call.png".toList) = some img ∧
      (getGprof r argv fs).2 = .ok) := by
  have hne : t ++ callPng ≠ t ++ profExt := by
    intro e; have := List.append_cancel_left e; revert this; decide
  change fs (t ++ profExt) = none at hp
  change (∀ f, f ≠ t ++ callPng → _) ∧ (_ → _ → ∀ img, _ → (getGprof r argv fs).1 (t ++ callPng) = _ ∧ _)
  constructor
  · intro f hf
    unfold getGprof
    split
    · rfl
    · split
      · rfl
      · simp only [ht, hd, Bool.false_eq_true, if_false]
        cases r.image <;> simp only [Files.put] <;> by_cases e : f = t ++ profExt
        · rw [if_pos e, e, hp]
        · rw [if_neg e, if_neg e]
        · rw [if_pos e, e, hp]
        · rw [if_neg e, if_neg hf, if_neg e]
  · intro ha hs img hi
    have : ¬ argv.length < 1 := by cases argv <;> simp_all
    unfold getGprof
    rw [if_neg this, hs]
    simp only [ht, hd, hi, Bool.false_eq_true, if_false, Files.put]
    rw [if_neg hne]
    simp

theorem put_self (g : Files) (n : Name) (b : Option Bytes) : g.put n b n = b := if_pos rfl

theorem put_ne (g : Files) {n f : Name} (b : Option Bytes) (h : f ≠ n) : g.put n b f = g f := if_neg h

theorem gprof_files (dr : Bool) (im : Option Bytes) (st : Bytes) (prof call : Name) (fs : Files) (f : Name) :
    (if dr = true then (fs.put prof (some st), End.traceback)
      else
        ((match im with
          | some img => (fs.put prof (some st)).put call (some img)
          | none => fs.put prof (some st)).put prof none,
          if im.isSome = true then End.ok else End.message)).1 f =
      if f = prof then (if dr then some st else none) else if f = call ∧ dr = false ∧ im.isSome = true then im else fs f := by
  by_cases e1 : f = prof
  · rw [if_pos e1, e1]
    cases dr
    · exact put_self _ _ _
    · exact put_self _ _ _
  · rw [if_neg e1]
    cases dr
    · refine (put_ne _ _ e1).trans ?_
      cases im with
      | none => rw [if_neg (by simp)]; exact put_ne _ _ e1
      | some img =>
        by_cases e2 : f = call
        · rw [if_pos ⟨e2, rfl, rfl⟩, e2]
          exact put_self _ _ _
        · rw [if_neg (fun h => e2 h.1)]
          exact (put_ne _ _ e2).trans (put_ne _ _ e1)
    · refine (put_ne fs (some st) e1).trans ?_
      rw [if_neg (fun h => by cases h.2.1)]

/-- C114, get_gprof, exactly: which files it changes, whatever happens: the temporary file is overwritten whatever it was (and is gone in the end, unless dumps raised); the graph is
written if dumps did not raise and the programs are there; nothing else, and nothing at all if the object cannot be made. -/
theorem C114_gprof_exact (r : Run) (argv : List Name) (fs : Files) (f : Name) :
    (getGprof r argv fs).1 f =
      match argv, r.setupRaises, r.typeName with
      | _ :: _, false, some t =>
        if f = t ++ ".prof".toList then (if r.dumpsRaises then some r.stats else none)
        else if f = t ++ ".call.png".toList ∧ r.dumpsRaises = false ∧ r.image.isSome then r.image
        else fs f
      | _, _, _ => fs f := by
  cases argv with
  | nil => rfl
  | cons a argv =>
    unfold getGprof
    rw [if_neg (by simp)]
    cases hs : r.setupRaises with
    | true => rfl
    | false =>
      cases ht : r.typeName with
      | none => rfl
      | some t =>
        simp only [Bool.false_eq_true, if_false]
        rw [show ".prof".toList = profExt from rfl, show ".call.png".toList = callPng from rfl]
        exact gprof_files r.dumpsRaises r.image r.stats _ _ fs f

/-- C114 is false of get_gprof: somebody's ndarray.prof is gone after the profile of an array. -/
theorem C114_gprof_full_false : ¬ C114_gprof_full := by
  intro h
  have := h ⟨false, some "ndarray".toList, false, [1], some [2]⟩ [['x']] (fun _ => some [7]) "ndarray".toList "ndarray.prof".toList rfl (by decide)
  revert this; decide

/-- and if the object cannot be pickled, the temporary file stays -/
theorem C114_gprof_leftover (r : Run) (a : Name) (argv : List Name) (fs : Files) (t : Name) (ht : r.typeName = some t) (hs : r.setupRaises = false)
    (hd : r.dumpsRaises = true) :
    (getGprof r (a :: argv) fs).1 (t ++ ".prof".toList) = some r.stats ∧ (getGprof r (a :: argv) fs).2 = .traceback := by
  rw [C114_gprof_exact]
  simp [hs, ht, hd, getGprof]

/-! ### concrete cases -/

example : undill byteLoad (fun f => if f = ['a'] then some [1] else if f = ['b'] then some [2] else none) [['a'], ['b'], ['c'], ['a']] = ([1, 2], false) := by decide

example : undill byteLoad (fun f => if f = ['a'] then some [1] else some [2]) [['b'], ['a']] = ([[2], [1]].flatten, true) :=
  C114_undill_partial _ _ _ _ (.cons ⟨[2], rfl, .more rfl .none⟩ (.cons ⟨[1], rfl, .more rfl .none⟩ .nil)) (by decide)

example : splitext "d.x/a.tar.gz".toList = ("d.x/a.tar".toList, ".gz".toList) ∧ splitext "d.x/a".toList = ("d.x/a".toList, []) ∧
    splitext "d/..png".toList = ("d/..png".toList, []) := by decide

example : HasExt "d.x/y.png".toList ".png" := ⟨"d.x/".toList, "y".toList, rfl, .inr ⟨"d.x".toList, rfl⟩, by decide, 'y', by decide, by decide⟩

example : ¬ HasExt "x.pkl".toList ".png" := fun h => absurd ((splitext_png _).2 h) (by decide)

/-- with a `Run` that meets the hypotheses of C114_gprof_partial -/
example : (getGprof ⟨false, some "A".toList, false, [1], some [2]⟩ [['x']] (fun _ => none)).1 "A.call.png".toList = some [2] := by decide

end Verif.Scripts
