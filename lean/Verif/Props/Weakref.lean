import Verif.Model.Weakref
import Verif.Props.CoreEx
import Verif.Props.PyStr
/-! C45: weak references: live stay live, dead stay dead. Uses C01 (the loaded graph is a copy). -/
set_option linter.unusedSimpArgs false
namespace Verif.Weak
open Verif.Core Verif.Core.Spec PyStr

/-! ### specification, on the original graph -/

/-- a source object that is a weak reference or proxy to `target` (None when dead): what save_weakref and
save_weakproxy store -/
def IsWeakTo (W : World) (x : Addr) (target : Val) : Prop :=
  ∃ f more, W.H x = .node (.red f (target :: more)) [] [] none ∧
    (node W f = .atom aCreateWeakref ∨ node W f = .atom aCreateWeakproxy)

/-- `v` is kept alive by `root` in the original graph: reached from it by access steps none of which leaves a weak
reference; atoms and objects found by name always are. -/
inductive KeptAlive (W : World) (root : Val) : Val → Prop where
  | root : KeptAlive W root root
  | atom (v a) : node W v = .atom a → KeptAlive W root v
  | part (x v s) : KeptAlive W root (.ref x) → (∀ target, ¬ IsWeakTo W x target) →
      child W (W.H x) s = some v → KeptAlive W root v

section
variable {W : World} {root : Val} {rv : TVal} {heap : List TObj} {φ : Corr}

theorem lookupD_mem {d : List (TVal × TVal)} {k v : TVal} (h : lookupD d k = some v) : ∃ k', (k', v) ∈ d := by
  induction d with
  | nil => cases h
  | cons e d ih =>
    obtain ⟨a, b⟩ := e
    simp only [lookupD] at h
    split at h
    · cases h; exact ⟨a, by simp⟩
    · obtain ⟨k', hk⟩ := ih h; exact ⟨k', by simp [hk]⟩

theorem mem_flat_key {es : List (TVal × TVal)} {n : Nat} {v : TVal} (h : es[n]?.map (·.1) = some v) :
    v ∈ es.flatMap (fun e => [e.1, e.2]) := by
  obtain ⟨e, h1, rfl⟩ := Option.map_eq_some_iff.1 h
  have := List.mem_of_getElem? h1
  simp only [List.mem_flatMap]
  exact ⟨e, this, by simp⟩

theorem mem_flat_val {es : List (TVal × TVal)} {n : Nat} {v : TVal} (h : es[n]?.map (·.2) = some v) :
    v ∈ es.flatMap (fun e => [e.1, e.2]) := by
  obtain ⟨e, h1, rfl⟩ := Option.map_eq_some_iff.1 h
  have := List.mem_of_getElem? h1
  simp only [List.mem_flatMap]
  exact ⟨e, this, by simp⟩

theorem tchild_kept {t : Nat} {o : TObj} {s : Sel} {v : TVal} (hk : Kept heap rv (.ref t)) (ho : heap[t]? = some o)
    (hw : isWeak o = false) (h : tchild heap o s = some v) : Kept heap rv v := by
  have direct : v ∈ holds o → Kept heap rv v := fun hm => .part t o v hk ho hw hm
  cases o with
  | tuple es =>
    cases s <;> simp [tchild] at h
    exact direct (by simpa [holds] using List.mem_of_getElem? h)
  | fset es =>
    cases s <;> simp [tchild] at h
    exact direct (by simpa [holds] using List.mem_of_getElem? h)
  | node con lits dits attrs st =>
    cases s with
    | item n =>
      simp only [tchild] at h
      exact direct (by simp only [holds, List.mem_append]; exact .inl (.inl (.inl (.inr (List.mem_of_getElem? h)))))
    | key n =>
      simp only [tchild] at h
      exact direct (by simp only [holds, List.mem_append]; exact .inl (.inl (.inr (mem_flat_key h))))
    | val n =>
      simp only [tchild] at h
      exact direct (by simp only [holds, List.mem_append]; exact .inl (.inl (.inr (mem_flat_val h))))
    | attrKey n =>
      simp only [tchild] at h
      exact direct (by simp only [holds, List.mem_append]; exact .inl (.inr (mem_flat_key h)))
    | attrVal n =>
      simp only [tchild] at h
      exact direct (by simp only [holds, List.mem_append]; exact .inl (.inr (mem_flat_val h)))
    | state =>
      simp only [tchild] at h
      exact direct (by simp [holds, h])
    | callee => cases con <;> simp [tchild] at h <;> exact direct (by simp [holds, h])
    | arg n =>
      cases con <;> simp [tchild] at h <;>
        exact direct (by
          simp only [holds, List.mem_append]
          exact .inl (.inl (.inl (.inl (List.mem_cons_of_mem _ (List.mem_of_getElem? h))))))
    | _ => cases con <;> simp [tchild] at h
  | cell c =>
    cases s <;> simp [tchild] at h
    exact direct (by simp [holds, h])
  | func code g name df cl attrs slots =>
    cases s with
    | glob k =>
      cases g with
      | atom a => simp [tchild] at h
      | ref tg =>
        have hg : Kept heap rv (.ref tg) := .part t _ _ hk ho hw (by simp [holds])
        simp only [tchild] at h
        split at h
        · rename_i l es a st he
          obtain ⟨k', hm⟩ := lookupD_mem h
          refine .part tg _ v hg he rfl ?_
          simp only [holds, List.mem_append, List.mem_flatMap]
          exact .inl (.inl (.inr ⟨_, hm, by simp⟩))
        · cases h
    | globRef =>
      cases g <;> simp [tchild] at h
      exact direct (by simp [holds, h])
    | code | name | defaults | closure => simp [tchild] at h; exact direct (by simp [holds, h])
    | attrKey n =>
      simp only [tchild] at h
      exact direct (by simp only [holds, List.mem_append]; exact .inl (.inr (mem_flat_key h)))
    | attrVal n =>
      simp only [tchild] at h
      exact direct (by simp only [holds, List.mem_append]; exact .inl (.inr (mem_flat_val h)))
    | slotKey n =>
      simp only [tchild] at h
      exact direct (by simp only [holds, List.mem_append]; exact .inr (mem_flat_key h))
    | slotVal n =>
      simp only [tchild] at h
      exact direct (by simp only [holds, List.mem_append]; exact .inr (mem_flat_val h))
    | _ => simp [tchild] at h
  | cls mt name bases dict qual =>
    cases s with
    | metatype | name | bases => simp [tchild] at h; exact direct (by simp [holds, h])
    | key n =>
      simp only [tchild] at h
      exact direct (by simp only [holds, List.mem_append]; exact .inl (.inr (mem_flat_key h)))
    | val n =>
      simp only [tchild] at h
      exact direct (by simp only [holds, List.mem_append]; exact .inl (.inr (mem_flat_val h)))
    | qualname => simp [tchild] at h; exact direct (by simp [holds, h])
    | _ => simp [tchild] at h

theorem plain_own (hw : WF W) (n : String) : Plain W (.atom (.glob "dill._dill" n)) := by
  intro x a hx e
  cases e
  obtain ⟨m, n', e, h, _⟩ := hw.nameOwn x _ hx
  cases e; exact h rfl

theorem plain_none (hw : WF W) : Plain W (.atom .none) := by
  intro x a hx e
  cases e
  obtain ⟨m, n', e, h, _⟩ := hw.nameOwn x _ hx
  cases e

/-- a copy of an object that is no weak reference is no weak reference -/
theorem notWeak_of (hw : WF W) (hc : IsCopy W root rv heap φ) {x t o} (h : CopyObj W φ x o)
    (hlit : ∀ f as l d st, W.H x = .node (.red f as) l d st →
      (node W f = .atom aCreateWeakref ∨ node W f = .atom aCreateWeakproxy) → ∃ target, IsWeakTo W x target)
    (hn : ∀ target, ¬ IsWeakTo W x target) (_ : φ.obj x = some t) : isWeak o = false := by
  unfold CopyObj at h
  cases o with
  | node tcon l d a s =>
    cases hx : W.H x <;> rw [hx] at h <;> try (first | exact h.elim | (rename_i c; cases c <;> exact h.elim))
    rename_i con lits dits st
    obtain ⟨h1, -⟩ := h
    cases con <;> cases tcon <;> simp only at h1
    · rfl
    · rfl
    · rfl
    · rename_i f as f' as'
      cases f' with
      | ref _ => rfl
      | atom fa =>
        simp only [isWeak, Bool.or_eq_false_iff, beq_eq_false_iff_ne]
        have hf : Plain W (.atom fa) → node W f = .atom fa := fun hp =>
          (same_of hw hc (v' := .atom fa) (.of_refs hw (y := x) (by rw [hx]; simp [refs, conRefs])) hp h1.1 rfl).2 rfl
        constructor <;> rintro rfl
        · obtain ⟨tg, ht⟩ := hlit _ _ _ _ _ hx (.inl (hf (plain_own hw _))); exact hn tg ht
        · obtain ⟨tg, ht⟩ := hlit _ _ _ _ _ hx (.inr (hf (plain_own hw _))); exact hn tg ht
    · rfl
  | _ => rfl

/-- what the graph is assumed to contain: objects made by dill's weak-reference constructors are weak
references (one target, no items or state) -/
def WeakWF (W : World) : Prop := ∀ x f as l d st, W.H x = .node (.red f as) l d st →
  (node W f = .atom aCreateWeakref ∨ node W f = .atom aCreateWeakproxy) → ∃ target, IsWeakTo W x target

theorem kept_reaches {v : Val} (h : KeptAlive W root v) : ∀ x, v = .ref x → (∀ a, W.H x ≠ .leaf a) → Reaches W root x := by
  induction h with
  | root => intro x e _; exact .here e
  | atom v a ha =>
    rintro x rfl hl
    simp only [node] at ha
    cases hx : W.H x <;> first | exact absurd hx (hl _) | (rw [hx] at ha; cases ha) | cases ha
  | part y v s _ _ hch ih =>
    rintro x rfl hl
    have := child_mem hch
    exact .step (ih y rfl (by intro a e; rw [e] at hch; cases hch)) this

theorem kept_copy (hw : WF W) (hww : WeakWF W) (hnc : ∀ x, Reaches W root x → ¬ Circular W x) (hc : IsCopy W root rv heap φ)
    {v : Val} (h : KeptAlive W root v) (hreach : ∃ tv, CopyVal W φ v tv) : ∃ tv, CopyVal W φ v tv ∧ Kept heap rv tv := by
  have noname : ∀ {x tx s w}, KeptAlive W root (.ref x) → CopyVal W φ (.ref x) tx → child W (W.H x) s = some w →
      ∃ t, φ.obj x = some t ∧ tx = .ref t := by
    intro x tx s w hk c1 hch
    have hr := kept_reaches hk x rfl (by intro a e; rw [e] at hch; cases hch)
    simp only [CopyVal] at c1
    cases hHx : W.H x <;> rw [hHx] at c1 hch <;> first
      | (simp [child] at hch; done)
      | (rcases c1 with c1 | ⟨c1, _⟩
         · exact c1
         · exact absurd c1 (hnc x hr))
  induction h with
  | root => exact ⟨rv, hc.root, .root⟩
  | atom v a ha =>
    obtain ⟨tv, htv⟩ := hreach
    have : tv = .atom a := copy_fun (v' := .atom a) htv rfl ha
    exact ⟨tv, htv, this ▸ .atom a⟩
  | part x v s hk hn hch ih =>
    -- the object `x` itself is copied, because it is an object with parts reached from the root
    have hx : ∃ tv, CopyVal W φ (.ref x) tv := by
      clear ih hreach hch
      have : ∀ {u : Val}, KeptAlive W root u → ∃ tv, CopyVal W φ u tv ∨ ∃ a, node W u = .atom a := by
        intro u hu
        induction hu with
        | root => exact ⟨rv, .inl hc.root⟩
        | atom v a ha => exact ⟨.atom a, .inr ⟨a, ha⟩⟩
        | part y u s' hk' _ hch' ih' =>
          obtain ⟨ty, hy | ⟨a, ha⟩⟩ := ih'
          · obtain ⟨t, h1, rfl⟩ := noname hk' hy hch'
            obtain ⟨o, h2, h3⟩ := hc.objs y t h1
            obtain ⟨tu, -, h5⟩ := (child_rel hw hc h1 h2 h3 s').2 u hch'
            exact ⟨tu, .inl h5⟩
          · simp only [node] at ha
            cases hHy : W.H y <;> rw [hHy] at ha hch' <;> first | (simp at ha; done) | simp [child] at hch'
      obtain ⟨tv, h | ⟨a, ha⟩⟩ := this hk
      · exact ⟨tv, h⟩
      · simp only [node] at ha
        refine ⟨.atom a, ?_⟩
        simp only [CopyVal]
        cases hHx : W.H x <;> rw [hHx] at ha <;> simp at ha
        rw [ha]
    obtain ⟨tx, c1, c2⟩ := ih hx
    obtain ⟨t, h1, rfl⟩ := noname hk c1 hch
    obtain ⟨o, h2, h3⟩ := hc.objs x t h1
    obtain ⟨tv, h4, h5⟩ := (child_rel hw hc h1 h2 h3 s).2 v hch
    exact ⟨tv, h5, tchild_kept c2 h2 (notWeak_of hw hc h3 (hww x) hn h1) h4⟩

end

/-- C45 on the loaded graph: for every access path of the original that ends at a weak reference (or proxy), the
same path of the copy ends at one (unless the path comes to a function or class needed for its own creation, which has become a
reference to its name); it is dead if the original was; and if nothing in the graph is needed for its own creation and the
original's referent is kept alive by the pickled object other than through weak references, then the copy is live and refers to
the object that every path of the original to that referent leads to in the copy. -/
theorem C45_weakrefs_partial (W : World) (hw : WF W) (hww : WeakWF W) (n : Nat) (root : Val) (ops : List Op)
    (h : dumps W n root = .ok ops) :
    ∃ rv heap, load ops = some (rv, heap) ∧
      ∀ path x target, follow W root path = some (.ref x) → IsWeakTo W x target → ByName W root heap rv path ∨
        ∃ t o, tfollow heap rv path = some (.ref t) ∧ heap[t]? = some o ∧ isWeak o = true ∧
          (∃ r, Deref heap rv o r) ∧
          (node W target = .atom .none → ∀ r, Deref heap rv o r → r = none) ∧
          (node W target ≠ .atom .none → KeptAlive W root target → (∀ x, Reaches W root x → ¬ Circular W x) →
            ∀ r, Deref heap rv o r → ∃ tv, r = some tv ∧
              (∀ a, node W target = .atom a → tv = .atom a) ∧
              ∀ path' v', follow W root path' = some v' → node W v' = node W target →
                tfollow heap rv path' = some tv) := by
  obtain ⟨rv, heap, φ, hl, hc⟩ := C01_isomorphic_copy_partial W hw n root ops h
  refine ⟨rv, heap, hl, ?_⟩
  intro path x target hp ⟨f, more, hx, hf⟩
  rcases path_or_name hw hc hp with hb | ⟨tv', g1, g2, _⟩
  · exact .inl hb
  right
  simp only [CopyVal, hx] at g2
  obtain ⟨t, g3, rfl⟩ | ⟨g2, _⟩ := g2
  case inr => obtain ⟨v, hv, _⟩ := g2; rw [hx] at hv; cases hv
  obtain ⟨o, g4, g5⟩ := hc.objs x t g3
  have g5' := g5
  simp only [CopyObj, hx] at g5
  cases o <;> simp only at g5
  rename_i tcon l d at' st
  obtain ⟨c1, c2, c3, c4⟩ := g5
  cases tcon <;> simp only at c1
  rename_i f' as'
  obtain ⟨k1, k2, k3⟩ := c1
  have hf' : isWeak (.node (.red f' as') l d at' st) = true := by
    rcases hf with hf | hf
    · have : f' = .atom aCreateWeakref := copy_fun (v' := .atom aCreateWeakref) k1 rfl hf
      subst this; simp [isWeak]
    · have : f' = .atom aCreateWeakproxy := copy_fun (v' := .atom aCreateWeakproxy) k1 rfl hf
      subst this; simp [isWeak]
  cases as' with
  | nil => simp at k2
  | cons arg more' =>
    have harg : CopyVal W φ target arg := k3 0 target arg rfl rfl
    have hnone : node W target = .atom .none ↔ arg = .atom .none := 
      same_of hw hc (v' := .atom .none) (.of_refs hw (y := x) (by rw [hx]; simp [refs, conRefs])) (plain_none hw) harg rfl
    refine ⟨t, _, g1, g4, hf', ?_, ?_, ?_⟩
    · by_cases e : arg = .atom .none
      · exact ⟨none, .inl ⟨e, rfl⟩⟩
      · by_cases e' : Kept heap rv arg
        · exact ⟨some arg, .inr (.inl ⟨e, e', rfl⟩)⟩
        · exact ⟨none, .inr (.inr ⟨e, e', rfl⟩)⟩
    · intro hn r hr
      have e := hnone.1 hn
      rcases hr with ⟨_, hr⟩ | ⟨hr, _⟩ | ⟨hr, _⟩
      · exact hr
      · exact absurd e hr
      · exact absurd e hr
    · intro hn hk hnc r hr
      have e : arg ≠ .atom .none := fun e => hn (hnone.2 e)
      obtain ⟨tv, d1, d2⟩ := kept_copy hw hww hnc hc hk ⟨arg, harg⟩
      have : tv = arg := copy_fun d1 harg rfl
      subst this
      rcases hr with ⟨hr, _⟩ | ⟨_, _, hr⟩ | ⟨_, hr, _⟩
      · exact absurd hr e
      · refine ⟨tv, hr, ?_, ?_⟩
        · intro a ha; exact copy_fun (v' := .atom a) harg rfl ha
        · intro path' v' hp' hv'
          rcases follow_rel hw hc path' hc.root _ hp' with ⟨tv'', q1, q2⟩ | ⟨_, _, _, y, _, _, q2, q3, _⟩
          · rw [q1, copy_fun q2 harg hv']
          · exact absurd q3 (hnc y (follow_reaches q2))
      · exact absurd d2 hr

/-! ### the referent of a proxy -/

theorem hexVal_digitChar (d : Nat) (h : d < 16) : hexVal d.digitChar = some d := by
  have : ∀ d : Fin 16, hexVal (Nat.digitChar d) = some d.1 := by decide
  exact this ⟨d, h⟩

theorem toDigits_hex (n : Nat) : ∀ c ∈ Nat.toDigits 16 n, ∃ d, d < 16 ∧ c = Nat.digitChar d := by
  induction n using Nat.strongRecOn with
  | _ n ih =>
    rw [Nat.toDigits_eq_if (by decide)]
    split
    · rename_i h; intro c hc; simp at hc; exact ⟨n, h, hc⟩
    · rename_i h
      intro c hc
      simp only [List.mem_append, List.mem_singleton] at hc
      rcases hc with hc | hc
      · exact ih (n / 16) (by omega) c hc
      · exact ⟨n % 16, by omega, hc⟩

theorem digitChar_ne (d : Nat) (h : d < 16) : d.digitChar ≠ ' ' ∧ d.digitChar ≠ '_' ∧ d.digitChar ≠ '>' ∧
    isSpace d.digitChar = false := by
  have : ∀ d : Fin 16, Nat.digitChar d ≠ ' ' ∧ Nat.digitChar d ≠ '_' ∧ Nat.digitChar d ≠ '>' ∧
    isSpace (Nat.digitChar d) = false := by decide
  exact this ⟨d, h⟩

theorem hexDigits_fold (l : List Char) (hl : ∀ c ∈ l, ∃ d, d < 16 ∧ c = Nat.digitChar d) : ∀ p acc,
    (p = false ∨ l ≠ []) → hexDigits p acc l = some (l.foldl (fun a c => 16 * a + (hexVal c).getD 0) acc) := by
  induction l with
  | nil => intro p acc h; rcases h with h | h
           · subst h; rfl
           · exact absurd rfl h
  | cons c l ih =>
    intro p acc _
    obtain ⟨d, hd, rfl⟩ := hl c (by simp)
    have h1 := (digitChar_ne d hd).2.1
    simp only [hexDigits, h1, if_false, hexVal_digitChar d hd, List.foldl_cons, Option.getD_some]
    exact ih (fun c hc => hl c (by simp [hc])) false _ (.inl rfl)

theorem fold_toDigits (n : Nat) : (Nat.toDigits 16 n).foldl (fun a c => 16 * a + (hexVal c).getD 0) 0 = n := by
  induction n using Nat.strongRecOn with
  | _ n ih =>
    rw [Nat.toDigits_eq_if (by decide)]
    split
    · rename_i h; simp [hexVal_digitChar n h]
    · rename_i h
      rw [List.foldl_append, ih (n / 16) (by omega)]
      simp [hexVal_digitChar (n % 16) (by omega)]
      omega

theorem int16_hexStr (n : Nat) : int16 (hexStr n) = some (some n) := by
  have hd := toDigits_hex n
  have hne : Nat.toDigits 16 n ≠ [] := Nat.toDigits_ne_nil
  have e1 : (hexStr n).dropWhile isSpace = hexStr n := rfl
  have e2 : ((hexStr n).reverse.dropWhile isSpace).reverse = hexStr n := by
    have : (hexStr n).reverse.dropWhile isSpace = (hexStr n).reverse := by
      cases e : (hexStr n).reverse with
      | nil => rfl
      | cons c l =>
        have hc : c ∈ hexStr n := by rw [← List.mem_reverse, e]; simp
        have : isSpace c = false := by
          simp only [hexStr, List.mem_cons] at hc
          rcases hc with rfl | rfl | hc
          · rfl
          · rfl
          · obtain ⟨d, h, rfl⟩ := hd c hc; exact (digitChar_ne d h).2.2.2
        simp [List.dropWhile, this]
    rw [this, List.reverse_reverse]
  have h := hexDigits_fold _ hd true 0 (.inr hne)
  rw [fold_toDigits] at h
  have e3 : stripSpaces (hexStr n) = hexStr n := by unfold stripSpaces; rw [e1, e2]
  have e4 : stripUnderscore (Nat.toDigits 16 n) = Nat.toDigits 16 n := by
    unfold stripUnderscore
    split
    · rename_i s heq
      obtain ⟨d, hd', hc⟩ := hd '_' (by rw [heq]; simp)
      exact absurd hc.symm (digitChar_ne d hd').2.1
    · rfl
  unfold int16
  rw [e3]
  have e5 : sign (hexStr n) = (false, hexStr n) := rfl
  have e6 : hexBody (hexStr n) = some n := by
    show hexDigits true 0 (stripUnderscore (Nat.toDigits 16 n)) = some n
    rw [e4, h]
  rw [e5]
  simp [e6]

theorem rstrip_gt (l : List Char) (n : Nat) : rstrip '>' (l ++ hexStr n ++ ">".toList) = l ++ hexStr n := by
  unfold rstrip
  have hne : Nat.toDigits 16 n ≠ [] := Nat.toDigits_ne_nil
  have e : (l ++ hexStr n ++ ">".toList).reverse = '>' :: (l ++ hexStr n).reverse := by simp
  rw [e]
  have : (l ++ hexStr n).reverse.dropWhile (· == '>') = (l ++ hexStr n).reverse := by
    have hr : (l ++ hexStr n).reverse = (Nat.toDigits 16 n).reverse ++ ('x' :: '0' :: l.reverse) := by simp [hexStr]
    rw [hr]
    cases e : (Nat.toDigits 16 n).reverse with
    | nil => rw [List.reverse_eq_nil_iff] at e; exact absurd e hne
    | cons c t =>
      have hc : c ∈ Nat.toDigits 16 n := by rw [← List.mem_reverse, e]; simp
      obtain ⟨d, h, rfl⟩ := toDigits_hex n c hc
      have := (digitChar_ne d h).2.2.1
      have h' : (d.digitChar == '>') = false := by simp [this]
      simp [List.dropWhile, h']
  simp only [List.dropWhile_cons, beq_self_eq_true, if_true, this, List.reverse_reverse]

abbrev at_ : List Char := " at ".toList

/-- scanning a prefix leaves the scanner in some state, with at most three characters to skip -/
theorem splitGo_state (p : List Char) : ∀ (k : Nat) (cur s : List Char), k ≤ 3 →
    ∃ L k' cur', k' ≤ 3 ∧ splitGo at_ k cur (p ++ s) = L ++ splitGo at_ k' cur' s := by
  induction p with
  | nil => intro k cur s hk; exact ⟨[], k, cur, hk, by simp⟩
  | cons c p ih =>
    intro k cur s hk
    cases k with
    | succ k =>
      obtain ⟨L, k', cur', h1, h2⟩ := ih k cur s (by omega)
      exact ⟨L, k', cur', h1, by simp only [List.cons_append, splitGo, h2]⟩
    | zero =>
      simp only [List.cons_append, splitGo]
      split
      · obtain ⟨L, k', cur', h1, h2⟩ := ih 3 [] s (by omega)
        exact ⟨cur.reverse :: L, k', cur', h1, by
          have : at_.length - 1 = 3 := rfl
          rw [this, h2]; rfl⟩
      · obtain ⟨L, k', cur', h1, h2⟩ := ih 0 (c :: cur) s (by omega)
        exact ⟨L, k', cur', h1, h2⟩

theorem splitGo_hex (n : Nat) (cur : List Char) : splitGo at_ 0 cur (hexStr n) = [cur.reverse ++ hexStr n] := by
  have : ∀ c ∈ hexStr n, at_.head? ≠ some c := by
    intro c hc
    simp only [hexStr, List.mem_cons] at hc
    rcases hc with rfl | rfl | hc
    · decide
    · decide
    · obtain ⟨d, h, rfl⟩ := toDigits_hex n c hc
      intro e
      have := (digitChar_ne d h).1
      exact this (Option.some.inj e).symm
  have h := splitGo_skips (by decide) (hexStr n) this cur []
  rw [List.append_nil] at h
  rw [h]
  simp [splitGo]

theorem getLast_append {α : Type} (L : List (List α)) (x y : List α) : ((L ++ [x, y]).getLast?) = some y := by
  simp [List.getLast?_append]

/-- the default repr of an object -/
def defaultRepr (cls : List Char) (addr : Nat) : List Char :=
  "<".toList ++ cls ++ " object at ".toList ++ hexStr addr ++ ">".toList

theorem scan_object (k : Nat) (cur s : List Char) (hk : k ≤ 3) :
    ∃ x, splitGo at_ k cur (" object at ".toList ++ s) = x :: splitGo at_ 0 [] s := by
  match k, hk with
  | 0, _ => exact ⟨_, by simp [splitGo, List.isPrefixOf, at_]; rfl⟩
  | 1, _ => exact ⟨_, by simp [splitGo, List.isPrefixOf, at_]; rfl⟩
  | 2, _ => exact ⟨_, by simp [splitGo, List.isPrefixOf, at_]; rfl⟩
  | 3, _ => exact ⟨_, by simp [splitGo, List.isPrefixOf, at_]; rfl⟩

theorem scan_to (k : Nat) (cur s : List Char) (hk : k ≤ 3) :
    ∃ c1, splitGo at_ k cur (" to".toList ++ s) = splitGo at_ 0 c1 s := by
  match k, hk with
  | 0, _ => exact ⟨_, by simp [splitGo, List.isPrefixOf, at_]; rfl⟩
  | 1, _ => exact ⟨_, by simp [splitGo, List.isPrefixOf, at_]; rfl⟩
  | 2, _ => exact ⟨_, by simp [splitGo, List.isPrefixOf, at_]; rfl⟩
  | 3, _ => exact ⟨_, by simp [splitGo, List.isPrefixOf, at_]; rfl⟩

theorem tailAddr_default (cls : List Char) (addr : Nat) : tailAddr (defaultRepr cls addr) = hexStr addr := by
  have e : defaultRepr cls addr = (("<".toList ++ cls) ++ " object at ".toList) ++ hexStr addr ++ ">".toList := by
    simp [defaultRepr]
  unfold tailAddr split
  rw [e, rstrip_gt, List.append_assoc ("<".toList ++ cls)]
  obtain ⟨L, k', cur', hk, h⟩ := splitGo_state ("<".toList ++ cls) 0 [] (" object at ".toList ++ hexStr addr) (by omega)
  rw [h]
  have : ∃ x, splitGo at_ k' cur' (" object at ".toList ++ hexStr addr) = [x, hexStr addr] := by
    obtain ⟨x, hx⟩ := scan_object k' cur' (hexStr addr) hk
    exact ⟨x, by rw [hx, splitGo_hex]; rfl⟩
  obtain ⟨x, hx⟩ := this
  rw [hx, getLast_append]
  rfl

theorem tailAddr_proxy (self : Nat) (ty : List Char) (hty : ∀ c ∈ ty, c ≠ ' ') (hat : ty ≠ "at".toList)
    (target : Nat) : tailAddr (proxyRepr self ty target) = hexStr target := by
  have e : proxyRepr self ty target = (("<weakproxy at ".toList ++ hexStr self) ++ (" to".toList ++
      (" ".toList ++ (ty ++ at_)))) ++ hexStr target ++ ">".toList := by
    have e0 : " to ".toList = " to".toList ++ " ".toList := by decide
    unfold proxyRepr
    rw [e0]
    simp only [List.append_assoc, at_]
  unfold tailAddr split
  rw [e, rstrip_gt, List.append_assoc ("<weakproxy at ".toList ++ hexStr self)]
  obtain ⟨L, k', cur', hk, h⟩ := splitGo_state ("<weakproxy at ".toList ++ hexStr self) 0 []
    (" to".toList ++ (" ".toList ++ (ty ++ at_)) ++ hexStr target) (by omega)
  rw [h]
  have h1 : ∃ c1, splitGo at_ k' cur' (" to".toList ++ (" ".toList ++ (ty ++ at_)) ++ hexStr target) =
      splitGo at_ 0 c1 (' ' :: (ty ++ (at_ ++ hexStr target))) := by
    obtain ⟨c1, h1⟩ := scan_to k' cur' (' ' :: (ty ++ (at_ ++ hexStr target))) hk
    exact ⟨c1, by rw [← h1]; simp⟩
  obtain ⟨c1, h1⟩ := h1
  have h2 : at_.isPrefixOf (' ' :: (ty ++ (at_ ++ hexStr target))) = false := by
    match ty, hty, hat with
    | [], _, _ => rfl
    | [a], h, _ =>
      simp only [at_, List.isPrefixOf]
      by_cases ha : a = 'a'
      · simp [List.isPrefixOf, ha]
      · simp [List.isPrefixOf, Ne.symm ha]
    | [a, b], h, hat =>
      simp only [at_, List.isPrefixOf]
      by_cases ha : a = 'a'
      · by_cases hb : b = 't'
        · subst ha hb; exact absurd rfl hat
        · simp [List.isPrefixOf, Ne.symm hb]
      · simp [List.isPrefixOf, Ne.symm ha]
    | a :: b :: c :: ty, h, _ =>
      have hc := h c (by simp)
      simp [at_, List.isPrefixOf, Ne.symm hc]
  have h3 : splitGo at_ 0 c1 (' ' :: (ty ++ (at_ ++ hexStr target))) =
      splitGo at_ 0 (' ' :: c1) (ty ++ (at_ ++ hexStr target)) := by
    conv => lhs; unfold splitGo
    simp only [h2]; rfl
  have h4 : ∀ c ∈ ty, at_.head? ≠ some c := by
    intro c hc he
    exact hty c hc (Option.some.inj he).symm
  have h5 : ∀ c2, splitGo at_ 0 c2 (at_ ++ hexStr target) = [c2.reverse, hexStr target] := by
    intro c2
    have hx := splitGo_hex target []
    simp [splitGo, List.isPrefixOf, at_] at hx ⊢
    exact hx
  rw [h1, h3, splitGo_skips (by decide) ty h4, h5, getLast_append]
  rfl

/-- C45 for proxies (CPython): the object stored for a proxy is its referent, if the referent is known to the
garbage collector, its class is not called "at" and has no space in its name, and `str` of the referent is the
default text or ends in something that is not a hexadecimal number; for a dead proxy it is None.
(Missing: referents whose `str` ends like an address, see below, and objects the collector does not track.) -/
theorem C45_proxy_referent_partial (idNone : Nat) (special tracked : List Nat) (hnone : idNone ∈ special)
    (self target : Nat) (ty : List Char) (hty : ∀ c ∈ ty, c ≠ ' ') (hat : ty ≠ "at".toList) :
    (target ∈ tracked → ∀ cls, defaultRepr cls target ≠ proxyRepr self ty target →
      proxyReferent idNone special tracked ⟨self, proxyRepr self ty target, some (defaultRepr cls target)⟩ = .ok target) ∧
    (target ∈ tracked → ∀ s, s ≠ proxyRepr self ty target → int16 (tailAddr s) = none →
      proxyReferent idNone special tracked ⟨self, proxyRepr self ty target, some s⟩ = .ok target) ∧
    proxyReferent idNone special tracked ⟨self, proxyRepr self ty target, none⟩ = .ok idNone := by
  refine ⟨?_, ?_, ?_⟩
  · intro ht cls hne
    simp [proxyReferent, proxyHelper, hne, tailAddr_default, int16_hexStr, locateObject, ht]
  · intro ht s hne hs
    simp [proxyReferent, proxyHelper, hne, hs, tailAddr_proxy self ty hty hat, int16_hexStr, locateObject, ht]
  · simp [proxyReferent, proxyHelper, locateObject, hnone]

deriving instance DecidableEq for Except

/-- C45 fails for proxies of objects whose `str` ends in what reads as a hexadecimal number after " at ": another
object is pickled in place of the referent, or dumps raises ReferenceError although the referent is alive. -/
theorem C45_proxy_misdirected : ∃ (self target other : Nat) (ty s : List Char), target ≠ other ∧
    (proxyReferent 1 [1, 2, 3] [target, other] ⟨self, proxyRepr self ty target, some s⟩ = .ok other) ∧
    (proxyReferent 1 [1, 2, 3] [target] ⟨self, proxyRepr self ty target, some s⟩ = .error .referenceError) := by
  refine ⟨4096, 8192, 0xdad, "Person".toList, "meet me at dad".toList, by decide, ?_, ?_⟩ <;> decide +kernel

/-! ### concrete cases -/

/-- a list holding an object and a weak reference to it, a dead one, and one to an object nothing else holds -/
def exH : Addr → SObj := fun a => match a with
  | 0 => .node .list [.ref 1, .ref 2, .ref 3, .ref 4] [] none
  | 1 => .node (.newobj (.atom (.glob "m" "C")) []) [] [] none
  | 2 => .node (.red (.atom aCreateWeakref) [.ref 1]) [] [] none
  | 3 => .node (.red (.atom aCreateWeakref) [.atom .none]) [] [] none
  | 4 => .node (.red (.atom aCreateWeakproxy) [.ref 5, .atom (.bool false)]) [] [] none
  | 5 => .node .dict [] [] none
  | _ => .leaf .none

def exW : World := ⟨exH, .atom aCreateFunction, .atom aCreateCell, .atom aCreateType, .atom aCellEmpty,
  .atom aSetattr, .atom aDelattr, .atom aContents, .atom aQualname, fun _ => none⟩

theorem exW_wf : WF exW := by
  refine ⟨rfl, rfl, rfl, rfl, rfl, rfl, rfl, rfl, ?_, (by intro _ _ h; cases h), (by intro _ _ h; cases h), (by intro _ _ _ h; cases h)⟩
  intro x
  match x with
  | 0 => exact ⟨rfl, rfl⟩
  | 1 => exact ⟨by simp [KNodup], trivial⟩
  | 2 | 3 | 4 => exact ⟨by simp [KNodup], trivial, by
      intro a ha h
      cases h
      rcases ha with h | h | h | h | h <;> exact absurd h (by decide)⟩
  | 5 => exact ⟨rfl, rfl, by simp [KNodup]⟩
  | _ + 6 => trivial

theorem exW_weak : WeakWF exW := by
  intro x f as l d st hx hf
  match x with
  | 0 | 1 | 5 => cases hx
  | 2 => cases hx; exact ⟨_, _, _, rfl, hf⟩
  | 3 => cases hx; exact ⟨_, _, _, rfl, hf⟩
  | 4 => cases hx; exact ⟨_, _, _, rfl, hf⟩
  | _ + 6 => cases hx

example : ∃ ops, dumps exW 40 (.ref 0) = .ok ops := by
  cases e : dumps exW 40 (.ref 0) with
  | ok o => exact ⟨o, rfl⟩
  | error e' =>
    have : Core.Ex.isOk (dumps exW 40 (.ref 0)) = true := by decide +kernel
    rw [e] at this; cases this
example : IsWeakTo exW 2 (.ref 1) := ⟨_, _, rfl, .inl rfl⟩
example (x : Addr) : ¬ Circular exW x := by
  rintro ⟨v, hv, _⟩
  match x with
  | 0 | 1 | 2 | 3 | 4 | 5 => cases hv
  | _ + 6 => cases hv
example : KeptAlive exW (.ref 0) (.ref 1) :=
  .part 0 (.ref 1) (.item 0) .root (by rintro t ⟨f, more, h, _⟩; cases h) rfl

end Verif.Weak
