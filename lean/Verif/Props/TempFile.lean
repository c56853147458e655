import Verif.Model.TempFile
set_option linter.unusedSimpArgs false
/-!
C74: what dill.temp.dump stored, dill.temp.load returns, for as long as the handle is kept, whatever happens to other files; and
the same in memory for dumpIO and loadIO.
-/
namespace Verif.TempFile

/-! ### specification -/

/-- the whole pickle -/
def Dump.bytes (d : Dump) : Bytes := d.chunks.flatten

/-- Unpickling these bytes, as `dill.loads` would. -/
def loads {E Obj : Type} (unpickle : Bytes → Except E Obj) (bs : Bytes) : Except (Err E) Obj :=
  (unpickle bs).mapError .unpickling

/-- The event leaves the file named `n` and the handle `i` alone: it does not close that handle, and does not put or remove a
file under that name.  Any other use of the file system is allowed, including more calls of temp.dump. -/
def LeavesAlone (n : String) (i : Nat) : Event → Prop
  | .dump _ _ _ _ => True
  | .close j => j ≠ i
  | .put m _ => m ≠ n
  | .remove m => m ≠ n

/-- Before the call: handles are numbered below `next`, and no handle is still open whose file, of that very name, somebody
else removed. -/
def Ready (w : World) (n : String) : Prop :=
  ∀ j h, w.handles j = some h → j < w.next ∧ h.name ≠ n

/-! ### lemmas -/

structure Holds (w : World) (n : String) (i : Nat) (h : Handle) (disk : Bytes) : Prop where
  file : w.files n = some disk
  hand : w.handles i = some h
  name : h.name = n
  lt : ∀ j g, w.handles j = some g → j < w.next
  others : ∀ j g, w.handles j = some g → j ≠ i → g.name ≠ n

theorem openNew_holds {w w' : World} {n : String} {del : Bool} {i : Nat} (hr : Ready w n)
    (h : openNew w n del = some (w', i)) :
    Holds w' n i ⟨n, del, []⟩ [] ∧ i = w.next ∧ w.files n = none ∧ (∀ m, m ≠ n → w'.files m = w.files m) ∧
      (∀ j, j ≠ i → w'.handles j = w.handles j) := by
  unfold openNew at h
  cases hf : w.files n with
  | some b => rw [hf] at h; cases h
  | none =>
    rw [hf] at h
    simp only [Option.some.injEq, Prod.mk.injEq] at h
    obtain ⟨rfl, rfl⟩ := h
    refine ⟨⟨by simp, by simp, rfl, ?_, ?_⟩, rfl, rfl, ?_, ?_⟩
    · intro j g hg
      simp only at hg ⊢
      split at hg
      · omega
      · exact Nat.lt_succ_of_lt (hr j g hg).1
    · intro j g hg hj
      simp only [hj, if_false] at hg
      exact (hr j g hg).2
    · intro m hm; simp [hm]
    · intro j hj; simp [hj]

theorem write_holds {w : World} {n : String} {i : Nat} {h : Handle} {disk : Bytes} (H : Holds w n i h disk)
    (c : Bytes) (e : Nat) :
    Holds (write w i c e) n i { h with pending := (h.pending ++ c).drop e } (disk ++ (h.pending ++ c).take e) := by
  unfold write
  rw [H.hand]
  refine ⟨by simp [H.name, H.file], by simp, H.name, ?_, ?_⟩
  · intro j g hg
    simp only at hg
    split at hg
    · rename_i hj; subst hj; exact H.lt _ _ H.hand
    · exact H.lt j g hg
  · intro j g hg hj
    simp only [hj, if_false] at hg
    exact H.others j g hg hj

theorem write_frame {w : World} {i : Nat} {h : Handle} (hh : w.handles i = some h) (c : Bytes) (e : Nat) (m : String)
    (hm : m ≠ h.name) : (write w i c e).files m = w.files m := by
  unfold write; rw [hh]; simp [hm]

theorem writeAll_holds {n : String} {i : Nat} (cs : List Bytes) : ∀ (es : List Nat) (w : World) (h : Handle) (disk : Bytes),
    Holds w n i h disk →
    ∃ d p, Holds (writeAll w i cs es) n i { h with pending := p } d ∧ d ++ p = disk ++ h.pending ++ cs.flatten ∧
      ∀ m, m ≠ n → (writeAll w i cs es).files m = w.files m := by
  induction cs with
  | nil =>
    intro es w h disk H
    exact ⟨disk, h.pending, by simpa [writeAll] using H, by simp, by simp [writeAll]⟩
  | cons c cs ih =>
    have go : ∀ (e : Nat) (es : List Nat) (w : World) (h : Handle) (disk : Bytes), Holds w n i h disk →
        ∃ d p, Holds (writeAll (write w i c e) i cs es) n i { h with pending := p } d ∧
          d ++ p = disk ++ h.pending ++ (c :: cs).flatten ∧
          ∀ m, m ≠ n → (writeAll (write w i c e) i cs es).files m = w.files m := by
      intro e es w h disk H
      obtain ⟨d, p, H', heq, hfr⟩ := ih es _ _ _ (write_holds H c e)
      refine ⟨d, p, H', ?_, ?_⟩
      · rw [heq]
        simp only [List.flatten_cons]
        rw [List.append_assoc disk, List.take_append_drop]
        simp
      · intro m hm
        rw [hfr m hm, write_frame H.hand c e m (by rw [H.name]; exact hm)]
    intro es w h disk H
    cases es with
    | nil => simp only [writeAll]; exact go 0 [] w h disk H
    | cons e es => simp only [writeAll]; exact go e es w h disk H

theorem flush_holds {w : World} {n : String} {i : Nat} {h : Handle} {disk : Bytes} (H : Holds w n i h disk) :
    Holds (flush w i) n i { h with pending := [] } (disk ++ h.pending) ∧
      ∀ m, m ≠ n → (flush w i).files m = w.files m := by
  unfold flush
  rw [H.hand]
  refine ⟨⟨by simp [H.name, H.file], by simp, H.name, ?_, ?_⟩, ?_⟩
  · intro j g hg
    simp only at hg
    split at hg
    · rename_i hj; subst hj; exact H.lt _ _ H.hand
    · exact H.lt j g hg
  · intro j g hg hj
    simp only [hj, if_false] at hg
    exact H.others j g hg hj
  · intro m hm; simp [H.name, hm]

theorem flush_next (w : World) (i : Nat) : (flush w i).next = w.next := by
  unfold flush; split <;> rfl

theorem write_next (w : World) (i : Nat) (c : Bytes) (e : Nat) : (write w i c e).next = w.next := by
  unfold write; split <;> rfl

theorem writeAll_next (i : Nat) (cs : List Bytes) : ∀ (es : List Nat) (w : World), (writeAll w i cs es).next = w.next := by
  induction cs with
  | nil => intro es w; rfl
  | cons c cs ih =>
    intro es w
    cases es <;> simp only [writeAll, ih, write_next]

theorem write_other (w : World) (i j : Nat) (c : Bytes) (e : Nat) (hj : j ≠ i) :
    (write w i c e).handles j = w.handles j := by
  unfold write; split <;> simp [hj]

theorem writeAll_other (i j : Nat) (hj : j ≠ i) (cs : List Bytes) : ∀ (es : List Nat) (w : World),
    (writeAll w i cs es).handles j = w.handles j := by
  induction cs with
  | nil => intro es w; rfl
  | cons c cs ih =>
    intro es w
    cases es <;> simp only [writeAll, ih, write_other _ _ _ _ _ hj]

theorem flush_other (w : World) (i j : Nat) (hj : j ≠ i) : (flush w i).handles j = w.handles j := by
  unfold flush; split <;> simp [hj]

theorem close_file {w : World} {n : String} {i : Nat} {h : Handle} {disk : Bytes} (H : Holds w n i h disk) :
    (close w i).files n = (if h.delete then none else some (disk ++ h.pending)) ∧
    (∀ m, m ≠ n → (close w i).files m = w.files m) ∧ (close w i).handles i = none ∧
    (∀ j, j ≠ i → (close w i).handles j = w.handles j) ∧ (close w i).next = w.next := by
  obtain ⟨H', hfr⟩ := flush_holds H
  unfold close
  rw [H.hand]
  simp only
  refine ⟨?_, ?_, by simp, ?_, flush_next w i⟩
  · by_cases hd : h.delete = true
    · simp [H.name, hd]
    · simp [H.name, hd, H'.file]
  · intro m hm
    simp [H.name, hm, hfr m hm]
  · intro j hj; simp [hj, flush_other w i j hj]

/-- closing a handle that is not `i` keeps what is known about `i` -/
theorem close_other {w : World} {n : String} {i : Nat} {h : Handle} {disk : Bytes} (H : Holds w n i h disk) (j : Nat)
    (hj : j ≠ i) : Holds (close w j) n i h disk := by
  cases hg : w.handles j with
  | none => unfold close; rw [hg]; exact H
  | some g =>
    have hgn := H.others j g hg hj
    have hfile : (close w j).files n = w.files n := by
      unfold close flush; rw [hg]; simp [Ne.symm hgn]
    have hhand : ∀ k, (close w j).handles k = if k = j then none else w.handles k := by
      intro k
      unfold close flush; rw [hg]; simp only
      by_cases hk : k = j <;> simp [hk]
    have hnext : (close w j).next = w.next := by unfold close; rw [hg]; exact flush_next w j
    refine ⟨by rw [hfile]; exact H.file, by rw [hhand, if_neg (Ne.symm hj)]; exact H.hand, H.name, ?_, ?_⟩
    · intro k g' hk
      rw [hhand] at hk; rw [hnext]
      split at hk
      · cases hk
      · exact H.lt k g' hk
    · intro k g' hk hki
      rw [hhand] at hk
      split at hk
      · cases hk
      · exact H.others k g' hk hki

theorem dump_other {w : World} {n : String} {i : Nat} {h : Handle} {disk : Bytes} (H : Holds w n i h disk) (d : Dump)
    (del : Option Bool) (m : String) (early : List Nat) : Holds (dump w d del m early).1 n i h disk := by
  unfold dump
  cases ho : openNew w m (del.getD true) with
  | none => exact H
  | some p =>
    obtain ⟨w1, j⟩ := p
    have hm : m ≠ n := by
      rintro rfl
      unfold openNew at ho; rw [H.file] at ho; cases ho
    -- what is true of the new handle, names aside
    have hj : j = w.next ∧ w1.next = w.next + 1 ∧ (∀ k, w1.files k = if k = m then some [] else w.files k) ∧
        (∀ k, w1.handles k = if k = j then some ⟨m, del.getD true, []⟩ else w.handles k) := by
      unfold openNew at ho
      cases hf : w.files m with
      | some b => rw [hf] at ho; cases ho
      | none =>
        rw [hf] at ho
        simp only [Option.some.injEq, Prod.mk.injEq] at ho
        obtain ⟨rfl, rfl⟩ := ho
        exact ⟨rfl, rfl, fun _ => rfl, fun _ => rfl⟩
    obtain ⟨hj1, hj2, hj3, hj4⟩ := hj
    have hij : j ≠ i := by
      have := H.lt i h H.hand; omega
    -- invariant kept by all that is done with the new handle
    have key : ∀ (v : World), v.next = w.next + 1 → (∀ k, k ≠ j → v.handles k = w.handles k) →
        (∀ g, v.handles j = some g → g.name = m) → v.files n = some disk → Holds v n i h disk := by
      intro v hv1 hv2 hv3 hv4
      refine ⟨hv4, by rw [hv2 i (Ne.symm hij)]; exact H.hand, H.name, ?_, ?_⟩
      · intro k g hk
        by_cases hkj : k = j
        · omega
        · rw [hv2 k hkj] at hk; have := H.lt k g hk; omega
      · intro k g hk hki
        by_cases hkj : k = j
        · subst hkj; rw [hv3 g hk]; exact hm
        · rw [hv2 k hkj] at hk; exact H.others k g hk hki
    have hname1 : ∀ g, w1.handles j = some g → g.name = m := by
      intro g hg; rw [hj4] at hg; simp at hg; rw [← hg]
    have hfile1 : w1.files n = some disk := by rw [hj3, if_neg (Ne.symm hm)]; exact H.file
    have hoth1 : ∀ k, k ≠ j → w1.handles k = w.handles k := by intro k hk; rw [hj4, if_neg hk]
    have wname : ∀ (v : World) c e, (∀ g, v.handles j = some g → g.name = m) →
        ∀ g, (write v j c e).handles j = some g → g.name = m := by
      intro v c e hv g hg
      unfold write at hg
      cases hvj : v.handles j with
      | none => rw [hvj] at hg; simp only at hg; rw [hvj] at hg; cases hg
      | some h0 => rw [hvj] at hg; simp at hg; rw [← hg]; exact hv h0 hvj
    have wfile : ∀ (v : World) c e, (∀ g, v.handles j = some g → g.name = m) → v.files n = some disk →
        (write v j c e).files n = some disk := by
      intro v c e hv hf
      unfold write
      cases hvj : v.handles j with
      | none => exact hf
      | some h0 => simp [hv h0 hvj, Ne.symm hm, hf]
    have allp : ∀ (cs : List Bytes) (es : List Nat) (v : World), (∀ g, v.handles j = some g → g.name = m) →
        v.files n = some disk → (∀ g, (writeAll v j cs es).handles j = some g → g.name = m) ∧
          (writeAll v j cs es).files n = some disk := by
      intro cs
      induction cs with
      | nil => intro es v a b; exact ⟨a, b⟩
      | cons c cs ih =>
        intro es v a b
        cases es with
        | nil => simp only [writeAll]; exact ih _ _ (wname v c 0 a) (wfile v c 0 a b)
        | cons e es => simp only [writeAll]; exact ih _ _ (wname v c e a) (wfile v c e a b)
    obtain ⟨hn2, hf2⟩ := allp d.chunks early w1 hname1 hfile1
    have ho2 : ∀ k, k ≠ j → (writeAll w1 j d.chunks early).handles k = w.handles k := by
      intro k hk; rw [writeAll_other j k hk, hoth1 k hk]
    have hx2 : (writeAll w1 j d.chunks early).next = w.next + 1 := by rw [writeAll_next, hj2]
    simp only
    split
    · -- raised: closed
      exact close_other (key _ hx2 ho2 hn2 hf2) j hij
    · refine key _ (by rw [flush_next, hx2]) (fun k hk => by rw [flush_other _ _ _ hk, ho2 k hk]) ?_ ?_
      · intro g hg
        unfold flush at hg
        cases hvj : (writeAll w1 j d.chunks early).handles j with
        | none => rw [hvj] at hg; simp only at hg; rw [hvj] at hg; cases hg
        | some h0 => rw [hvj] at hg; simp at hg; rw [← hg]; exact hn2 h0 hvj
      · unfold flush
        cases hvj : (writeAll w1 j d.chunks early).handles j with
        | none => exact hf2
        | some h0 => simp [hn2 h0 hvj, Ne.symm hm, hf2]

theorem step_holds {w : World} {n : String} {i : Nat} {h : Handle} {disk : Bytes} (H : Holds w n i h disk) (e : Event)
    (he : LeavesAlone n i e) : Holds (step w e) n i h disk := by
  cases e with
  | dump d del m early => exact dump_other H d del m early
  | close j => exact close_other H j he
  | put m bs =>
    exact ⟨by simp only [step]; rw [if_neg (Ne.symm he)]; exact H.file, H.hand, H.name, H.lt, H.others⟩
  | remove m =>
    exact ⟨by simp only [step]; rw [if_neg (Ne.symm he)]; exact H.file, H.hand, H.name, H.lt, H.others⟩

theorem run_holds {n : String} {i : Nat} {h : Handle} {disk : Bytes} (es : List Event) : ∀ (w : World),
    Holds w n i h disk → (∀ e ∈ es, LeavesAlone n i e) → Holds (run w es) n i h disk := by
  induction es with
  | nil => intro w H _; exact H
  | cons e es ih =>
    intro w H he
    exact ih _ (step_holds H e (he e (by simp))) (fun e' h' => he e' (by simp [h']))

theorem dump_ok {w w' : World} {d : Dump} {del : Option Bool} {n : String} {early : List Nat} {i : Nat}
    (hr : Ready w n) (hd : dump w d del n early = (w', some i)) :
    d.raises = false ∧ Holds w' n i ⟨n, del.getD true, []⟩ d.bytes ∧ w.files n = none ∧
      ∀ m, m ≠ n → w'.files m = w.files m := by
  unfold dump at hd
  cases ho : openNew w n (del.getD true) with
  | none => rw [ho] at hd; simp at hd
  | some p =>
    obtain ⟨w1, j⟩ := p
    rw [ho] at hd
    obtain ⟨H, hj, hno, hfr, -⟩ := openNew_holds hr ho
    obtain ⟨dk, pd, H2, heq, hfr2⟩ := writeAll_holds d.chunks early w1 _ _ H
    simp only at hd
    split at hd
    · simp at hd
    · rename_i hra
      simp only [Prod.mk.injEq, Option.some.injEq] at hd
      obtain ⟨rfl, rfl⟩ := hd
      obtain ⟨H3, hfr3⟩ := flush_holds H2
      simp only [List.nil_append, List.append_nil] at heq
      refine ⟨by simpa using hra, ?_, hno, ?_⟩
      · rw [Dump.bytes, ← heq]; exact H3
      · intro m hm; rw [hfr3 m hm, hfr2 m hm, hfr m hm]

/-! ### C74 -/

/-- After `file = temp.dump(obj)`, and after any sequence of other events that leaves that file and that handle alone, `temp.load` of
the handle or of its name gives exactly what `loads(dumps(obj))` gives, however the writes were buffered. -/
theorem C74_temp_roundtrip {E Obj : Type} (unpickle : Bytes → Except E Obj) (w w' : World) (d : Dump) (del : Option Bool)
    (n : String) (early : List Nat) (i : Nat) (hr : Ready w n) (hd : dump w d del n early = (w', some i))
    (es : List Event) (hes : ∀ e ∈ es, LeavesAlone n i e) :
    load unpickle (run w' es) (.path n) = loads unpickle d.bytes ∧
    ∃ h, w'.handles i = some h ∧ h.name = n ∧ load unpickle (run w' es) (.handle h) = loads unpickle d.bytes := by
  obtain ⟨-, H, -, -⟩ := dump_ok hr hd
  have H2 := run_holds es w' H hes
  have hl : ∀ a : Arg, a.name = n →
      load unpickle (run w' es) a = loads unpickle d.bytes := by
    intro a ha
    unfold load loads
    simp only [ha, H2.file]
    cases unpickle d.bytes <;> rfl
  exact ⟨hl _ rfl, _, H.hand, rfl, hl _ rfl⟩

/-- Dumping touches no other file. -/
theorem C74_temp_frame (w w' : World) (d : Dump) (del : Option Bool) (n : String) (early : List Nat) (i : Nat)
    (hr : Ready w n) (hd : dump w d del n early = (w', some i)) (m : String) :
    (m ≠ n → w'.files m = w.files m) ∧ w.files n = none := by
  obtain ⟨-, -, hno, hfr⟩ := dump_ok hr hd
  exact ⟨hfr m, hno⟩

/-- "Keep the return value for as long as you want your file to exist": once the handle is closed (or garbage) the file is
gone, unless delete=False was given, in which case it still loads; no other file is affected. -/
theorem C74_temp_closed {E Obj : Type} (unpickle : Bytes → Except E Obj) (w w' : World) (d : Dump) (del : Option Bool)
    (n : String) (early : List Nat) (i : Nat) (hr : Ready w n) (hd : dump w d del n early = (w', some i))
    (es : List Event) (hes : ∀ e ∈ es, LeavesAlone n i e) :
    (del ≠ some false → load unpickle (close (run w' es) i) (.path n) = .error .notFound) ∧
    (del = some false → load unpickle (close (run w' es) i) (.path n) = loads unpickle d.bytes) ∧
    ∀ m, m ≠ n → (close (run w' es) i).files m = (run w' es).files m := by
  obtain ⟨-, H, -, -⟩ := dump_ok hr hd
  have H2 := run_holds es w' H hes
  obtain ⟨hc, hfr, -⟩ := close_file H2
  refine ⟨?_, ?_, hfr⟩
  · intro hdel
    have : del.getD true = true := by
      cases del with
      | none => rfl
      | some b => cases b <;> simp_all
    unfold load
    simp only [Arg.name, hc, this, if_true]
  · intro hdel
    subst hdel
    unfold load loads
    simp only [Arg.name, hc, Option.getD_some, List.append_nil, Bool.false_eq_true, if_false]
    cases unpickle d.bytes <;> rfl

/-- When the object cannot be pickled, no file is left behind and no other file is touched, unless delete=False. -/
theorem C74_temp_failed_partial (w : World) (d : Dump) (del : Option Bool) (n : String) (early : List Nat)
    (hr : Ready w n) (hf : d.raises = true) (hdel : del ≠ some false) (m : String) :
    (dump w d del n early).1.files m = w.files m ∧ (dump w d del n early).2 = none := by
  have hdd : del.getD true = true := by
    cases del with
    | none => rfl
    | some b => cases b <;> simp_all
  unfold dump
  cases ho : openNew w n (del.getD true) with
  | none => exact ⟨rfl, rfl⟩
  | some p =>
    obtain ⟨w1, j⟩ := p
    obtain ⟨H, hj, hno, hfr, -⟩ := openNew_holds hr ho
    obtain ⟨dk, pd, H2, heq, hfr2⟩ := writeAll_holds d.chunks early w1 _ _ H
    obtain ⟨hc, hcf, -⟩ := close_file H2
    simp only [hf, if_true, and_true]
    by_cases hm : m = n
    · subst hm; rw [hc, hno]; simp only [hdd, if_true]
    · rw [hcf m hm, hfr2 m hm, hfr m hm]

def empty : World := ⟨fun _ => none, fun _ => none, 0⟩

/-- With delete=False a failed dump leaves a file holding part of a pickle, whose name the caller never learns. -/
theorem C74_failed_dump_leaves_file :
    ¬ (∀ (w : World) (d : Dump) (del : Option Bool) (n : String) (early : List Nat), Ready w n → d.raises = true →
        ∀ m, (dump w d del n early).1.files m = w.files m) := by
  intro h
  have := h empty ⟨[[0x80, 4], [0x5d]], true⟩ (some false) "/tmp/tmpx" [1] (fun j h hh => by cases hh) rfl "/tmp/tmpx"
  have e : (dump empty ⟨[[0x80, 4], [0x5d]], true⟩ (some false) "/tmp/tmpx" [1]).1.files "/tmp/tmpx" =
      some [0x80, 4, 0x5d] := by decide +kernel
  rw [e] at this
  cases this

/-! ### in memory -/

theorem fold_write (cs : List Bytes) : ∀ (bs : Bytes),
    cs.foldl Buffer.write ⟨bs, bs.length⟩ = ⟨bs ++ cs.flatten, (bs ++ cs.flatten).length⟩ := by
  induction cs with
  | nil => intro bs; simp
  | cons c cs ih =>
    intro bs
    have : Buffer.write ⟨bs, bs.length⟩ c = ⟨bs ++ c, (bs ++ c).length⟩ := by
      simp [Buffer.write]
    rw [List.foldl_cons, this, ih]
    simp

/-- loadIO of what dumpIO returned gives what loads(dumps(obj)) gives, wherever the cursor of the buffer was moved, and so does
loadIO of the buffer's value. -/
theorem C74_memory_roundtrip {E Obj : Type} (unpickle : Bytes → Except E Obj) (d : Dump) (b : Buffer) (h : dumpIO d = some b)
    (pos : Nat) :
    loadIO unpickle (.buffer { b with pos := pos }) = unpickle d.bytes ∧ loadIO unpickle (.bytes b.value) = unpickle d.bytes := by
  unfold dumpIO at h
  split at h
  · cases h
  · have := fold_write d.chunks []
    simp only [List.nil_append, List.length_nil] at this
    rw [this] at h
    simp only [Option.some.injEq] at h
    subst h
    exact ⟨rfl, rfl⟩

theorem C74_memory_total (d : Dump) : (dumpIO d).isSome = !d.raises := by
  unfold dumpIO; split <;> simp_all

/-! ### concrete cases -/

def two : Dump := ⟨[[0x80, 4, 0x4b], [2, 0x2e]], false⟩

/-- a second temp.dump, its handle closed, a foreign file written: the first file still loads; with part of it written early -/
example : Ready empty "/tmp/a" ∧ (dump empty two none "/tmp/a" [2]).2 = some 0 ∧
    (∀ e ∈ [Event.dump two none "/tmp/b" [], .close 1, .put "/tmp/c" [1], .remove "/tmp/c"], LeavesAlone "/tmp/a" 0 e) ∧
    (run (dump empty two none "/tmp/a" [2]).1
      [.dump two none "/tmp/b" [], .close 1, .put "/tmp/c" [1], .remove "/tmp/c"]).files "/tmp/a" =
      some [0x80, 4, 0x4b, 2, 0x2e] ∧
    (run (dump empty two none "/tmp/a" [2]).1
      [.dump two none "/tmp/b" [], .close 1, .put "/tmp/c" [1], .remove "/tmp/c"]).files "/tmp/b" = none := by
  refine ⟨(fun j h hh => by cases hh), by decide +kernel, ?_, by decide +kernel, by decide +kernel⟩
  intro e he
  simp only [List.mem_cons, List.mem_nil_iff, or_false] at he
  rcases he with rfl | rfl | rfl | rfl <;> simp [LeavesAlone]

example : (dumpIO two).isSome = true := by decide

example : (close (dump empty two none "/tmp/a" []).1 0).files "/tmp/a" = none ∧
    (close (dump empty two (some false) "/tmp/a" []).1 0).files "/tmp/a" = some two.bytes := by
  constructor <;> decide +kernel

end Verif.TempFile
