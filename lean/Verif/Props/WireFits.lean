import Verif.Props.Wire
import Verif.Props.CoreEx
/-! C05 on bytes: everything dumps writes has a byte form, unless a string, an integer or the memo is too large for the
protocol. -/
set_option linter.unusedSimpArgs false
set_option linter.unusedSectionVars false
namespace Verif.Wire
open Core Core.Spec

/-! ### specification: what fits in the protocols 2 to 5 -/

/-- at protocol `S`: a string or bytes below 4 GiB, an integer below 2 GiB (17179869168 bits), names without newlines and below 4 GiB; at
protocol 2 no bytes (which are calls of codecs.encode there) and names in ASCII -/
def AtomFits (S : Nat) : Atom → Prop
  | .int i => ∃ k : Nat, i.natAbs < 2 ^ k ∧ k < 17179869168
  | .str s => (utf8 s).length < 2 ^ 32
  | .bytes bs => bs.length < 2 ^ 32 ∧ 3 ≤ S
  | .glob m n => (3 ≤ S ∨ (ascii m = true ∧ ascii n = true)) ∧ ((10 : UInt8) ∉ utf8 m ∧ (10 : UInt8) ∉ utf8 n) ∧ (utf8 m).length < 2 ^ 32 ∧ (utf8 n).length < 2 ^ 32
  | _ => True

def ValFits (S : Nat) : Val → Prop
  | .atom a => AtomFits S a
  | .ref _ => True

/-- sets only when the protocol has opcodes for them -/
def ConFits (S : Nat) : Con → Prop
  | .set => 4 ≤ S
  | .red f as => ValFits S f ∧ ∀ v ∈ as, ValFits S v
  | .newobj c as => ValFits S c ∧ ∀ v ∈ as, ValFits S v
  | _ => True

def KVsFit (S : Nat) (es : List (Val × Val)) : Prop := ∀ e ∈ es, ValFits S e.1 ∧ ValFits S e.2

def StFits (S : Nat) : Option St → Prop
  | some (.opaque v) => ValFits S v
  | some (.attrs es) => KVsFit S es
  | none => True

def GlobsFit (S : Nat) : Globs → Prop
  | .byRef v => ValFits S v
  | .copied i c => KVsFit S i ∧ KVsFit S c

def ObjFits (S : Nat) : SObj → Prop
  | .leaf a => AtomFits S a
  | .tuple es => ∀ v ∈ es, ValFits S v
  | .fset es => 4 ≤ S ∧ ∀ v ∈ es, ValFits S v
  | .node con lits dits st => ConFits S con ∧ (∀ v ∈ lits, ValFits S v) ∧ KVsFit S dits ∧ StFits S st
  | .cell none => True
  | .cell (some v) => ValFits S v
  | .func co g nm d cl a s => ValFits S co ∧ GlobsFit S g ∧ ValFits S nm ∧ ValFits S d ∧ ValFits S cl ∧ KVsFit S a ∧ KVsFit S s
  | .cls mt nm b d q => ValFits S mt ∧ ValFits S nm ∧ ValFits S b ∧ KVsFit S d ∧ ValFits S q
  | .bad => True

/-- every value written into the graph fits -/
structure WorldFits (S : Nat) (W : World) : Prop where
  obj : ∀ x, ObjFits S (W.H x)
  createFunction : ValFits S W.createFunction
  createCell : ValFits S W.createCell
  createType : ValFits S W.createType
  cellEmpty : ValFits S W.cellEmpty
  setattr : ValFits S W.setattr
  delattr : ValFits S W.delattr
  contents : ValFits S W.contents
  qualname : ValFits S W.qualname
  byName : ∀ x a, W.byName x = some a → AtomFits S a

/-! ### what the pickler emits -/

variable {S : Nat}

/-- opcodes with a byte form (memo indices aside); the opcodes of sets under `S` -/
def OpOk (S : Nat) : Op → Prop
  | .emptySet => 4 ≤ S
  | .additems => 4 ≤ S
  | .frozenset => 4 ≤ S
  | .push a => AtomFits S a
  | .tupleN n => 1 ≤ n ∧ n ≤ 3
  | _ => True

def RedFits (S : Nat) : Red → Prop
  | .setCell _ v => ValFits S v
  | .setQual _ q => ValFits S q
  | .setItems _ c => KVsFit S c
  | .setDead _ _ => True

def PostFits (S : Nat) (p : P) : Prop := ∀ e ∈ p.post, ∀ r ∈ e.2, RedFits S r

/-- from a state whose deferred reductions fit, `f` writes good opcodes and keeps the deferred reductions fitting -/
def Em (S : Nat) (f : PM) : Prop := ∀ p p' ops, f p = .ok (p', ops) → PostFits S p → PostFits S p' ∧ ∀ o ∈ ops, OpOk S o

theorem em_emit {ops : List Op} (h : ∀ o ∈ ops, OpOk S o) : Em S (emit ops) := by
  intro p p' o h1 hp
  simp only [emit, Except.ok.injEq, Prod.mk.injEq] at h1
  rw [← h1.1, ← h1.2]; exact ⟨hp, h⟩

theorem em_then {f g : PM} (hf : Em S f) (hg : Em S g) : Em S (f ;; g) := by
  intro p p' o h hp
  unfold andThen at h
  cases h1 : f p with
  | error e => rw [h1] at h; cases h
  | ok r =>
    obtain ⟨p1, o1⟩ := r
    rw [h1] at h
    simp only [] at h
    cases h2 : g p1 with
    | error e => rw [h2] at h; cases h
    | ok r2 =>
      obtain ⟨p2, o2⟩ := r2
      rw [h2] at h
      simp only [Except.ok.injEq, Prod.mk.injEq] at h
      obtain ⟨a1, a2⟩ := hf _ _ _ h1 hp
      obtain ⟨b1, b2⟩ := hg _ _ _ h2 a1
      rw [← h.1, ← h.2]
      refine ⟨b1, ?_⟩
      intro x hx
      rcases List.mem_append.1 hx with hx | hx
      · exact a2 x hx
      · exact b2 x hx

theorem em_memoize (k : Key) : Em S (memoize k) := by
  intro p p' o h hp
  simp only [memoize, Except.ok.injEq, Prod.mk.injEq] at h
  rw [← h.1, ← h.2]
  exact ⟨hp, by simp [OpOk]⟩

theorem em_memoOrGet (x : Addr) : Em S (memoOrGet x) := by
  intro p p' o h hp
  unfold memoOrGet at h
  split at h
  · simp only [Except.ok.injEq, Prod.mk.injEq] at h
    rw [← h.1, ← h.2]; exact ⟨hp, by simp [OpOk]⟩
  · exact em_memoize _ p p' o h hp

section
variable {sv : Val → PM} (hsv : ∀ v, ValFits S v → Em S (sv v))
include hsv

theorem em_all (vs : List Val) (h : ∀ v ∈ vs, ValFits S v) : Em S (saveAll sv vs) := by
  induction vs with
  | nil => exact em_emit (by simp)
  | cons v vs ih => exact em_then (hsv v (h v (by simp))) (ih fun x hx => h x (by simp [hx]))

theorem em_kvs (es : List (Val × Val)) (h : KVsFit S es) : Em S (saveKVs sv es) := by
  induction es with
  | nil => exact em_emit (by simp)
  | cons e es ih =>
    have he := h e (by simp)
    exact em_then (hsv _ he.1) (em_then (hsv _ he.2) (ih fun x hx => h x (by simp [hx])))

theorem mem_chunksAux {α : Type} (n : Nat) : ∀ (l c : List α), c ∈ chunksAux n l → ∀ x ∈ c, x ∈ l := by
  induction n with
  | zero => intro l c h; simp [chunksAux] at h
  | succ n ih =>
    intro l c h x hx
    simp only [chunksAux] at h
    split at h
    · simp at h
    · rcases List.mem_cons.1 h with rfl | h
      · exact List.mem_of_mem_take hx
      · exact List.mem_of_mem_drop (ih _ c h x hx)

theorem em_foldr {α : Type} (g : List α → PM) (cs : List (List α)) (h : ∀ c ∈ cs, Em S (g c)) :
    Em S (cs.foldr (fun c rest => g c ;; rest) (emit [])) := by
  induction cs with
  | nil => exact em_emit (by simp)
  | cons c cs ih => exact em_then (h c (by simp)) (ih fun x hx => h x (by simp [hx]))

theorem em_appends (vs : List Val) (h : ∀ v ∈ vs, ValFits S v) : Em S (batchAppends sv vs) := by
  unfold batchAppends
  refine em_foldr hsv (fun c => match c with
      | [v] => sv v ;; emit [.append]
      | c => emit [.mark] ;; saveAll sv c ;; emit [.appends]) _ ?_
  intro c hc
  have hm := mem_chunksAux hsv _ _ c hc
  have hall : Em S (emit [.mark] ;; saveAll sv c ;; emit [.appends]) :=
    em_then (em_emit (by simp [OpOk])) (em_then (em_all hsv c fun v hv => h v (hm v hv)) (em_emit (by simp [OpOk])))
  match c, hm, hall with
  | [], _, hall => exact hall
  | [v], hm, _ => exact em_then (hsv v (h v (hm v (by simp)))) (em_emit (by simp [OpOk]))
  | _ :: _ :: _, _, hall => exact hall

theorem em_adds (hS : 4 ≤ S) (vs : List Val) (h : ∀ v ∈ vs, ValFits S v) : Em S (batchAdds sv vs) := by
  unfold batchAdds
  refine em_foldr hsv (fun c => emit [.mark] ;; saveAll sv c ;; emit [.additems]) _ ?_
  intro c hc
  have hm := mem_chunksAux hsv _ _ c hc
  exact em_then (em_emit (by simp [OpOk])) (em_then (em_all hsv c fun v hv => h v (hm v hv)) (em_emit (by simpa [OpOk] using hS)))

theorem em_setitems (es : List (Val × Val)) (h : KVsFit S es) : Em S (batchSetitems sv es) := by
  unfold batchSetitems
  refine em_foldr hsv (fun c => match c with
      | [(k, v)] => sv k ;; sv v ;; emit [.setitem]
      | c => emit [.mark] ;; saveKVs sv c ;; emit [.setitems]) _ ?_
  intro c hc
  have hm := mem_chunksAux hsv _ _ c hc
  have hall : Em S (emit [.mark] ;; saveKVs sv c ;; emit [.setitems]) :=
    em_then (em_emit (by simp [OpOk])) (em_then (em_kvs hsv c fun v hv => h v (hm v hv)) (em_emit (by simp [OpOk])))
  match c, hm, hall with
  | [], _, hall => exact hall
  | [(k, v)], hm, _ =>
    have := h _ (hm (k, v) (by simp))
    exact em_then (hsv k this.1) (em_then (hsv v this.2) (em_emit (by simp [OpOk])))
  | _ :: _ :: _, _, hall => exact hall

theorem em_dict (k : Key) (es : List (Val × Val)) (h : KVsFit S es) : Em S (saveDict sv k es) :=
  em_then (em_emit (by simp [OpOk])) (em_then (em_memoize k) (em_setitems hsv es h))

def ArgFits (S : Nat) : Arg → Prop
  | .val v => ValFits S v
  | .dict _ es => KVsFit S es

theorem em_args (as : List Arg) (h : ∀ a ∈ as, ArgFits S a) : Em S (saveArgs sv as) := by
  induction as with
  | nil => exact em_emit (by simp)
  | cons a as ih =>
    refine em_then ?_ (ih fun x hx => h x (by simp [hx]))
    have ha := h a (by simp)
    cases a with
    | val v => exact hsv v ha
    | dict k es => exact em_dict hsv k es ha

theorem em_anonTuple (as : List Arg) (h : ∀ a ∈ as, ArgFits S a) : Em S (anonTuple sv as) := by
  unfold anonTuple
  by_cases h1 : as.isEmpty = true
  · rw [if_pos h1]; exact em_emit (by simp [OpOk, AtomFits])
  · rw [if_neg h1]
    have hne : as ≠ [] := by simpa using h1
    have := List.length_pos_iff.2 hne
    by_cases h2 : as.length ≤ 3
    · rw [if_pos h2]
      exact em_then (em_args hsv as h) (em_then (em_emit (by simp [OpOk]; omega)) (em_memoize _))
    · rw [if_neg h2]
      exact em_then (em_emit (by simp [OpOk])) (em_then (em_args hsv as h) (em_then (em_emit (by simp [OpOk])) (em_memoize _)))

theorem em_call (f : Val) (as : List Arg) (hf : ValFits S f) (h : ∀ a ∈ as, ArgFits S a) : Em S (callReduce sv f as) :=
  em_then (hsv f hf) (em_then (em_anonTuple hsv as h) (em_emit (by simp [OpOk])))

theorem em_tuple (x : Addr) (es : List Val) (h : ∀ v ∈ es, ValFits S v) : Em S (saveTuple sv x es) := by
  unfold saveTuple
  by_cases h1 : es.isEmpty = true
  · rw [if_pos h1]; exact em_emit (by simp [OpOk, AtomFits])
  · rw [if_neg h1]
    have hne : es ≠ [] := by simpa using h1
    have := List.length_pos_iff.2 hne
    by_cases h2 : es.length ≤ 3
    · rw [if_pos h2]
      refine em_then (em_all hsv es h) ?_
      intro p p' o he hp
      dsimp only at he
      split at he
      · simp only [Except.ok.injEq, Prod.mk.injEq] at he
        rw [← he.1, ← he.2]
        refine ⟨hp, ?_⟩
        intro y hy
        rcases List.mem_append.1 hy with hy | hy
        · rw [(List.mem_replicate.1 hy).2]; trivial
        · simp at hy; subst hy; trivial
      · exact em_then (em_emit (ops := [.tupleN es.length]) (by simp [OpOk]; omega)) (em_memoize (.obj x)) p p' o he hp
    · rw [if_neg h2]
      refine em_then (em_emit (by simp [OpOk])) (em_then (em_all hsv es h) ?_)
      intro p p' o he hp
      dsimp only at he
      split at he
      · simp only [Except.ok.injEq, Prod.mk.injEq] at he
        rw [← he.1, ← he.2]
        exact ⟨hp, by simp [OpOk]⟩
      · exact em_then (em_emit (ops := [.tuple]) (by simp [OpOk])) (em_memoize (.obj x)) p p' o he hp

theorem em_fset (hS : 4 ≤ S) (x : Addr) (es : List Val) (h : ∀ v ∈ es, ValFits S v) : Em S (saveFset sv x es) := by
  unfold saveFset
  refine em_then (em_emit (by simp [OpOk])) (em_then (em_all hsv es h) ?_)
  intro p p' o he hp
  dsimp only at he
  split at he
  · simp only [Except.ok.injEq, Prod.mk.injEq] at he
    rw [← he.1, ← he.2]
    exact ⟨hp, by simp [OpOk]⟩
  · exact em_then (em_emit (ops := [.frozenset]) (by simpa [OpOk] using hS)) (em_memoize (.obj x)) p p' o he hp

theorem em_state (st : Option St) (h : StFits S st) : Em S (saveState sv st) := by
  match st, h with
  | none, _ => exact em_emit (by simp)
  | some (.opaque v), h => exact em_then (hsv v h) (em_emit (by simp [OpOk]))
  | some (.attrs es), h => exact em_then (em_dict hsv _ es h) (em_emit (by simp [OpOk]))

theorem argFits_map {as : List Val} (h : ∀ v ∈ as, ValFits S v) : ∀ a ∈ as.map Arg.val, ArgFits S a := by
  intro a ha
  obtain ⟨v, hv, rfl⟩ := List.mem_map.1 ha
  exact h v hv

theorem em_node (x : Addr) (con : Con) (lits : List Val) (dits : List (Val × Val)) (st : Option St)
    (h : ObjFits S (.node con lits dits st)) : Em S (saveNode sv x con lits dits st) := by
  obtain ⟨h1, h2, h3, h4⟩ := h
  cases con with
  | list => exact em_then (em_emit (by simp [OpOk])) (em_then (em_memoize _) (em_appends hsv _ h2))
  | set => exact em_then (em_emit (by simpa [OpOk] using (show 4 ≤ S from h1))) (em_then (em_memoize _) (em_adds hsv h1 _ h2))
  | dict => exact em_then (em_emit (by simp [OpOk])) (em_then (em_memoize _) (em_setitems hsv _ h3))
  | red f as =>
    exact em_then (em_call hsv f _ h1.1 (argFits_map hsv h1.2)) (em_then (em_memoOrGet x) (em_then (em_appends hsv _ h2)
      (em_then (em_setitems hsv _ h3) (em_state hsv st h4))))
  | newobj c as =>
    exact em_then (hsv c h1.1) (em_then (em_anonTuple hsv _ (argFits_map hsv h1.2)) (em_then (em_emit (by simp [OpOk]))
      (em_then (em_memoOrGet x) (em_then (em_appends hsv _ h2) (em_then (em_setitems hsv _ h3) (em_state hsv st h4))))))

variable {W : World} (hW : WorldFits S W)
include hW

theorem em_red (r : Red) (h : RedFits S r) : Em S (runRed W sv r) := by
  cases r with
  | setCell c v =>
    refine em_then (em_call hsv _ _ hW.setattr ?_) (em_emit (by simp [OpOk]))
    intro a ha
    simp only [List.mem_cons, List.not_mem_nil, or_false] at ha
    rcases ha with rfl | rfl | rfl
    · trivial
    · exact hW.contents
    · exact h
  | setQual c q =>
    refine em_then (em_call hsv _ _ hW.setattr ?_) (em_emit (by simp [OpOk]))
    intro a ha
    simp only [List.mem_cons, List.not_mem_nil, or_false] at ha
    rcases ha with rfl | rfl | rfl
    · trivial
    · exact hW.qualname
    · exact h
  | setItems f copy =>
    simp only [runRed]
    split
    · exact em_emit (by simp)
    · intro p p' o he hp
      dsimp only at he
      split at he
      · cases he
      · rename_i i hi
        exact em_then (em_emit (ops := [.get i]) (by simp [OpOk])) (em_then (em_setitems hsv copy h)
          (em_emit (ops := [.pop]) (by simp [OpOk]))) p p' o he hp
  | setDead f copy =>
    simp only [runRed]
    split
    · exact em_emit (by simp)
    · intro p p' o he hp; cases he

omit hsv in
theorem em_saveGlobal (x : Addr) : Em S (saveGlobal W x) := by
  unfold saveGlobal
  split
  · rename_i a ha
    refine em_then (em_emit ?_) (em_memoize _)
    intro o ho
    simp only [List.mem_singleton] at ho
    subst ho; exact hW.byName x a ha
  · intro p p' o he hp; cases he

theorem em_reds (rs : List Red) (h : ∀ r ∈ rs, RedFits S r) : Em S (runReds W sv rs) := by
  induction rs with
  | nil => exact em_emit (by simp)
  | cons r rs ih => exact em_then (em_red hsv hW r (h r (by simp))) (ih fun x hx => h x (by simp [hx]))

theorem em_withPost (x : Addr) (l0 : List Red) (body : PM) (h0 : ∀ r ∈ l0, RedFits S r) (hb : Em S body) :
    Em S (withPost W sv x l0 body) := by
  intro p p' o h hp
  unfold withPost at h
  split at h
  · exact em_saveGlobal hW x p p' o h hp
  · cases h1 : body { p with post := p.post ++ [(x, l0)] } with
    | error e => rw [h1] at h; cases h
    | ok r =>
      obtain ⟨p1, o1⟩ := r
      rw [h1] at h
      simp only [] at h
      obtain ⟨a1, a2⟩ := hb _ _ _ h1 (by
        intro e he r hr
        rcases List.mem_append.1 he with he | he
        · exact hp e he r hr
        · simp only [List.mem_cons, List.not_mem_nil, or_false] at he
          subst he; exact h0 r hr)
      have hl : ∀ r ∈ (((p1.post.find? (·.1 = x)).map (·.2)).getD []).reverse, RedFits S r := by
        intro r hr
        rw [List.mem_reverse] at hr
        cases hf : p1.post.find? (·.1 = x) with
        | none => rw [hf] at hr; simp at hr
        | some e =>
          rw [hf] at hr
          exact a1 e (List.mem_of_find?_eq_some hf) r hr
      cases h2 : runReds W sv ((((p1.post.find? (·.1 = x)).map (·.2)).getD []).reverse) { p1 with post := p1.post.filter (·.1 ≠ x) } with
      | error e => rw [h2] at h; cases h
      | ok r =>
        obtain ⟨p2, o2⟩ := r
        rw [h2] at h
        simp only [Except.ok.injEq, Prod.mk.injEq] at h
        obtain ⟨b1, b2⟩ := em_reds hsv hW _ hl _ _ _ h2 (by
          intro e he r hr
          exact a1 e (List.mem_filter.1 he).1 r hr)
        rw [← h.1, ← h.2]
        refine ⟨b1, ?_⟩
        intro y hy
        rcases List.mem_append.1 hy with hy | hy
        · exact a2 y hy
        · exact b2 y hy

theorem addRed_fits {y : Addr} {r : Red} {post : List (Addr × List Red)} (hr : RedFits S r)
    (hp : ∀ e ∈ post, ∀ r ∈ e.2, RedFits S r) : ∀ e ∈ addRed y r post, ∀ r ∈ e.2, RedFits S r := by
  intro e he r' hr'
  obtain ⟨e0, h0, rfl⟩ := List.mem_map.1 he
  by_cases hz : e0.1 = y
  · simp only [hz, if_true] at hr'
    rcases List.mem_append.1 hr' with h | h
    · exact hp e0 h0 r' h
    · simp only [List.mem_cons, List.not_mem_nil, or_false] at h; subst h; exact hr
  · simp only [hz, if_false] at hr'
    exact hp e0 h0 r' hr'

theorem em_cell (x : Addr) (c : Option Val) (h : ObjFits S (.cell c)) : Em S (saveCell W sv x c) := by
  cases c with
  | none =>
    refine em_then (em_call hsv _ _ hW.createCell ?_) (em_then (em_memoOrGet x) (em_then (em_call hsv _ _ hW.delattr ?_) (em_emit (by simp [OpOk]))))
    · intro a ha
      simp only [List.mem_cons, List.not_mem_nil, or_false] at ha
      subst ha; exact hW.cellEmpty
    · intro a ha
      simp only [List.mem_cons, List.not_mem_nil, or_false] at ha
      rcases ha with rfl | rfl
      · trivial
      · exact hW.contents
  | some v =>
    intro p p' o he hp
    simp only [saveCell] at he
    split at he
    · rename_i y hy
      cases h1 : (callReduce sv W.createCell [.val (.atom .none)] ;; memoOrGet x) p with
      | error e => rw [h1] at he; cases he
      | ok r =>
        obtain ⟨p1, o1⟩ := r
        rw [h1] at he
        simp only [Except.ok.injEq, Prod.mk.injEq] at he
        obtain ⟨a1, a2⟩ := em_then (em_call hsv _ [.val (.atom .none)] hW.createCell (by
          intro a ha
          simp only [List.mem_cons, List.not_mem_nil, or_false] at ha
          subst ha; trivial)) (em_memoOrGet x) _ _ _ h1 hp
        rw [← he.1, ← he.2]
        exact ⟨addRed_fits hsv hW (show RedFits S (.setCell x v) from h) a1, a2⟩
    · exact em_then (em_call hsv _ [.val v] hW.createCell (by
          intro a ha
          simp only [List.mem_cons, List.not_mem_nil, or_false] at ha
          subst ha; exact h)) (em_memoOrGet x) p p' o he hp

theorem em_func (x : Addr) (co : Val) (g : Globs) (nm d cl : Val) (a s : List (Val × Val))
    (h : ObjFits S (.func co g nm d cl a s)) : Em S (saveFunc W sv x co g nm d cl a s) := by
  obtain ⟨h1, h2, h3, h4, h5, h6, h7⟩ := h
  have hst : Em S (saveFuncState sv a s) := by
    unfold saveFuncState
    split
    · exact em_then (em_dict hsv _ _ h6) (em_emit (by simp [OpOk]))
    · exact em_then (em_dict hsv _ _ h6) (em_then (em_dict hsv _ _ h7) (em_then (em_emit (by simp [OpOk]))
        (em_then (em_memoize _) (em_emit (by simp [OpOk])))))
  have hbody : ∀ gA, ArgFits S gA → Em S (callReduce sv W.createFunction
      [.val co, gA, .val nm, .val d, .val cl] ;; memoOrGet x ;; saveFuncState sv a s) := by
    intro gA hg
    refine em_then (em_call hsv _ _ hW.createFunction ?_) (em_then (em_memoOrGet x) hst)
    intro b hb
    simp only [List.mem_cons, List.not_mem_nil, or_false] at hb
    rcases hb with rfl | rfl | rfl | rfl | rfl
    · exact h1
    · exact hg
    · exact h3
    · exact h4
    · exact h5
  intro p p' o he hp
  cases g with
  | byRef v => exact em_withPost hsv hW x [] _ (by simp) (hbody (.val v) h2) p p' o he hp
  | copied init copy =>
    simp only [saveFunc] at he
    cases hf : p.post.find? (fun e => e.1 ∈ valueAddrs copy) with
    | none =>
      rw [hf] at he
      exact em_withPost hsv hW x [.setItems x copy] _ (by
        intro r hr
        simp only [List.mem_cons, List.not_mem_nil, or_false] at hr
        subst hr; exact h2.2) (hbody (.dict (.globs x) init) h2.1) p p' o he hp
    | some e =>
      obtain ⟨y, l⟩ := e
      rw [hf] at he
      exact em_withPost hsv hW x [] _ (by simp) (hbody (.dict (.globs x) init) h2.1) _ p' o he
        (addRed_fits hsv hW (show RedFits S (if p.onStack x then .setDead x copy else .setItems x copy) from by
          split
          · trivial
          · exact h2.2) hp)

theorem em_cls (x : Addr) (mt nm b : Val) (d : List (Val × Val)) (q : Val) (h : ObjFits S (.cls mt nm b d q)) :
    Em S (saveCls W sv x mt nm b d q) := by
  obtain ⟨h1, h2, h3, h4, h5⟩ := h
  refine em_withPost hsv hW x _ _ ?_ (em_then (em_call hsv _ _ hW.createType ?_) (em_memoOrGet x))
  · intro r hr
    simp only [List.mem_cons, List.not_mem_nil, or_false] at hr
    subst hr; exact h5
  · intro a ha
    simp only [List.mem_cons, List.not_mem_nil, or_false] at ha
    rcases ha with rfl | rfl | rfl | rfl
    · exact h1
    · exact h2
    · exact h3
    · exact h4

theorem em_step (v : Val) (h : ValFits S v) : Em S (saveStep W sv v) := by
  cases v with
  | atom a => exact em_emit (by intro o ho; simp only [List.mem_cons, List.not_mem_nil, or_false] at ho; subst ho; exact h)
  | ref x =>
    intro p p' o he hp
    simp only [saveStep] at he
    split at he
    · rename_i i hi
      exact em_emit (ops := [.get i]) (by simp [OpOk]) p p' o he hp
    · have hx := hW.obj x
      cases hH : W.H x with
      | leaf a =>
        rw [hH] at hx he
        exact em_then (em_emit (ops := [.push a]) (by intro o ho; simp only [List.mem_cons, List.not_mem_nil, or_false] at ho; subst ho; exact hx)) (em_memoize (.obj x)) p p' o he hp
      | tuple es => rw [hH] at hx he; exact em_tuple hsv x es hx p p' o he hp
      | fset es => rw [hH] at hx he; exact em_fset hsv hx.1 x es hx.2 p p' o he hp
      | node con lits dits st => rw [hH] at hx he; exact em_node hsv x con lits dits st hx p p' o he hp
      | cell c => rw [hH] at hx he; exact em_cell hsv hW x c hx p p' o he hp
      | func co g nm d cl a s => rw [hH] at hx he; exact em_func hsv hW x co g nm d cl a s hx p p' o he hp
      | cls mt nm b d q => rw [hH] at hx he; exact em_cls hsv hW x mt nm b d q hx p p' o he hp
      | bad => rw [hH] at he; cases he
end

theorem em_save {W : World} (hW : WorldFits S W) (n : Nat) : ∀ v, ValFits S v → Em S (save W n v) := by
  induction n with
  | zero => intro v _ p p' o h; cases h
  | succ n ih => intro v hv; exact em_step ih hW v hv

/-! ### memo indices -/

def memos : List Op → Nat
  | [] => 0
  | .memoize :: ops => memos ops + 1
  | _ :: ops => memos ops

theorem memos_append (a b : List Op) : memos (a ++ b) = memos a + memos b := by
  induction a with
  | nil => simp [memos]
  | cons o a ih => cases o <;> simp only [List.cons_append, memos, ih] <;> omega

theorem step_memo {m m' : M} {o : Op} (h : step o m = some m') : m'.memo.length = m.memo.length + memos [o] := by
  cases o <;> simp only [step] at h
  case reduce =>
    repeat' split at h
    all_goals first
      | cases h; done
      | (rw [call_memo h]; rfl)
  all_goals
    repeat' split at h
    all_goals first
      | cases h; done
      | (simp only [Option.some.injEq] at h; rw [← h]; simp [memos, M.alloc, M.setObj])
      | (obtain ⟨_, _, rfl⟩ := Option.map_eq_some_iff.1 h; rfl)

theorem exec_memo (ops : List Op) : ∀ (m m' : M), exec ops m = some m' → m'.memo.length = m.memo.length + memos ops := by
  induction ops with
  | nil => intro m m' h; simp only [exec, Option.some.injEq] at h; rw [← h]; rfl
  | cons o ops ih =>
    intro m m' h
    simp only [exec] at h
    obtain ⟨m1, h1, h2⟩ := Option.bind_eq_some_iff.1 h
    rw [ih m1 m' h2, step_memo h1, show o :: ops = [o] ++ ops from rfl, memos_append]
    omega

theorem encodeLong_length (i : Int) (k : Nat) (h : i.natAbs < 2 ^ k) : (encodeLong i).length ≤ k / 8 + 1 := by
  unfold encodeLong
  by_cases h0 : i = 0
  · simp [h0]
  rw [if_neg h0]
  have hb : bitLength i ≤ k := by
    unfold bitLength
    rw [if_neg h0]
    exact (Nat.log2_lt (by omega)).2 h
  have hl : (toBytes (bitLength i / 8 + 1) i).length ≤ k / 8 + 1 := by
    unfold toBytes
    rw [le_length]
    omega
  simp only []
  split
  · split
    · simp only [List.length_dropLast]; omega
    · exact hl
  · exact hl

theorem encInt_fits (i : Int) (h : ∃ k : Nat, i.natAbs < 2 ^ k ∧ k < 17179869168) : ∃ b, encInt i = some b := by
  obtain ⟨k, h1, h2⟩ := h
  have := encodeLong_length i k h1
  unfold encInt
  split
  · exact ⟨_, rfl⟩
  split
  · exact ⟨_, rfl⟩
  split
  · exact ⟨_, rfl⟩
  simp only []
  split
  · exact ⟨_, rfl⟩
  rw [if_pos (by omega)]
  exact ⟨_, rfl⟩

theorem encOp_ok {c : Nat} {o : Op} (ho : OpOk S o) (hc : o = .memoize → c < 2 ^ 32) (hg : ∀ i, o = .get i → i < 2 ^ 32) :
    ∃ b, encOp c o = some b := by
  cases o with
  | push a =>
    cases a with
    | int i => exact encInt_fits i ho
    | str s => exact ⟨_, by simp only [encOp, encAtom, encStr]; rw [if_pos (show (utf8 s).length < 2 ^ 32 from ho)]⟩
    | glob m n => exact ⟨_, by simp only [encOp, encAtom, encGlob]; rw [if_pos ho.2.1]⟩
    | bytes bs =>
      have ho : bs.length < 2 ^ 32 := ho.1
      simp only [encOp, encAtom, encBytes]
      by_cases h1 : bs.length < 256
      · rw [if_pos h1]; exact ⟨_, rfl⟩
      · rw [if_neg h1, if_pos ho]; exact ⟨_, rfl⟩
    | bool b => cases b <;> exact ⟨_, rfl⟩
    | _ => exact ⟨_, rfl⟩
  | tupleN n =>
    match n, ho with
    | 1, _ => exact ⟨_, rfl⟩
    | 2, _ => exact ⟨_, rfl⟩
    | 3, _ => exact ⟨_, rfl⟩
    | 0, h => exact absurd h.1 (by decide)
    | n + 4, h => have := h.2; omega
  | memoize =>
    simp only [encOp]
    by_cases h1 : c < 256
    · rw [if_pos h1]; exact ⟨_, rfl⟩
    · rw [if_neg h1, if_pos (hc rfl)]; exact ⟨_, rfl⟩
  | get i =>
    simp only [encOp]
    by_cases h1 : i < 256
    · rw [if_pos h1]; exact ⟨_, rfl⟩
    · rw [if_neg h1, if_pos (hg i rfl)]; exact ⟨_, rfl⟩
  | _ => exact ⟨_, rfl⟩

theorem encStr4_ok {t : String} (h : (utf8 t).length < 2 ^ 32) : ∃ b, encStr4 t = some b := by
  unfold encStr4
  split
  · exact ⟨_, rfl⟩
  · exact ⟨_, rfl⟩

theorem encW_ok {p c : Nat} {o : Op} (ho : OpOk p o) (hc : o = .memoize → c < 2 ^ 32) (hg : ∀ i, o = .get i → i < 2 ^ 32)
    (hn : 4 ≤ p → ∀ m n, o ≠ .push (.glob m n)) : ∃ b, encW p c (.op o) = some b := by
  by_cases hp : 4 ≤ p
  · cases o with
    | push a =>
      cases a with
      | str t => simp only [encW, if_pos hp]; exact encStr4_ok ho
      | bytes bs =>
        have h4 : bs.length < 2 ^ 32 := ho.1
        simp only [encW, if_pos hp, encBytes4, if_pos h4]; exact encOp_ok (c := c) (o := .push (.bytes bs)) ho (by simp) (by simp)
      | glob m n => exact absurd rfl (hn hp m n)
      | _ => exact encOp_ok ho hc hg
    | memoize => simp only [encW, if_pos hp]; exact ⟨_, rfl⟩
    | emptySet => simp only [encW, if_pos hp]; exact ⟨_, rfl⟩
    | additems => simp only [encW, if_pos hp]; exact ⟨_, rfl⟩
    | frozenset => simp only [encW, if_pos hp]; exact ⟨_, rfl⟩
    | _ => exact encOp_ok ho hc hg
  · cases o with
    | push a =>
      cases a with
      | str t => simp only [encW, if_neg hp]; exact encOp_ok (c := c) ho hc hg
      | bytes bs => simp only [encW, if_neg hp, if_pos (show 3 ≤ p from ho.2)]; exact encOp_ok (c := c) ho hc hg
      | glob m n => simp only [encW, if_neg hp]; rw [if_pos ho.1]; exact encOp_ok (c := c) ho hc hg
      | _ => exact encOp_ok ho hc hg
    | memoize => simp only [encW, if_neg hp]; exact encOp_ok ho hc hg
    | emptySet => exact absurd ho hp
    | additems => exact absurd ho hp
    | frozenset => exact absurd ho hp
    | _ => exact encOp_ok ho hc hg

/-- protocols 2 and 3 -/
theorem items_ok {p : Nat} (hp : p < 4) (ops : List Op) : ∀ (m m' : M), exec ops m = some m' → (∀ o ∈ ops, OpOk p o) →
    m.memo.length + memos ops ≤ 2 ^ 32 → ∃ is, items p m.memo.length (ops.map .op) = some is := by
  induction ops with
  | nil => intro m m' _ _ _; exact ⟨_, rfl⟩
  | cons o ops ih =>
    intro m m' h ho hm
    simp only [exec] at h
    obtain ⟨m1, h1, h2⟩ := Option.bind_eq_some_iff.1 h
    have hlen := step_memo h1
    have hb : bumpW m.memo.length (.op o) = m1.memo.length := by rw [hlen]; cases o <;> rfl
    rw [show o :: ops = [o] ++ ops from rfl, memos_append] at hm
    obtain ⟨b2, hb2⟩ := ih m1 m' h2 (fun x hx => ho x (by simp [hx])) (by omega)
    obtain ⟨b1, hb1⟩ := encW_ok (p := p) (c := m.memo.length) (ho o (by simp)) (by
        rintro rfl
        simp only [memos] at hm; omega) (by
        rintro i rfl
        simp only [step] at h1
        split at h1
        · rename_i v hv
          have := (List.getElem?_eq_some_iff.1 hv).1
          omega
        · cases h1) (by omega)
    exact ⟨b1 :: b2, by simp only [List.map_cons, items, hb1, hb, hb2]⟩

/-- the number of globals among the opcodes -/
def globs : List Op → Nat
  | [] => 0
  | .push (.glob _ _) :: ops => globs ops + 1
  | _ :: ops => globs ops

/-- protocols 4 and 5, memoising every name anew -/
theorem items4_ok {p : Nat} (hp : 4 ≤ p) (ops : List Op) : ∀ (m m' : M) (st : CSt), exec ops m = some m' → (∀ o ∈ ops, OpOk p o) →
    st.map.length = m.memo.length → (∀ j ∈ st.map, j < st.strs.length) →
    st.strs.length + memos ops + 2 * globs ops ≤ 2 ^ 32 →
    ∃ ws is, compile st (List.replicate (globs ops) (none, none)) ops = some ws ∧ items p st.strs.length ws = some is := by
  induction ops with
  | nil => intro m m' st _ _ _ _ _; exact ⟨[], [], rfl, rfl⟩
  | cons o ops ih =>
    intro m m' st h ho hml hmj hb
    simp only [exec] at h
    obtain ⟨m1, h1, h2⟩ := Option.bind_eq_some_iff.1 h
    have hlen := step_memo h1
    have ho' : ∀ x ∈ ops, OpOk p x := fun x hx => ho x (by simp [hx])
    have generic : ∀ l : Option String, NoMemo o → (4 ≤ p → ∀ m n, o ≠ .push (.glob m n)) → memos (o :: ops) = memos ops →
        globs (o :: ops) = globs ops → memos [o] = 0 →
        (compile st (List.replicate (globs ops) (none, none)) (o :: ops) =
          (compile { st with last := l } (List.replicate (globs ops) (none, none)) ops).map fun ws => WOp.op o :: ws) →
        ∃ ws is, compile st (List.replicate (globs (o :: ops)) (none, none)) (o :: ops) = some ws ∧
          items p st.strs.length ws = some is := by
      intro l hn hg hm0 hg0 hm1 hc
      rw [hm0, hg0] at hb
      obtain ⟨ws, is, g1, g2⟩ := ih m1 m' { st with last := l } h2 ho' (by simp only []; omega) hmj hb
      obtain ⟨b1, hb1⟩ := encW_ok (p := p) (c := st.strs.length) (ho o (by simp)) (by rintro rfl; exact absurd hn id)
        (by rintro i rfl; exact absurd hn id) hg
      have hbump : bumpW st.strs.length (.op o) = st.strs.length := by
        cases o <;> first | rfl | exact absurd hn id
      refine ⟨.op o :: ws, b1 :: is, by rw [hg0, hc, g1]; rfl, ?_⟩
      simp only [items, hb1, hbump]
      simp only [] at g2
      rw [g2]
    cases o with
    | push a =>
      cases a with
      | glob md n =>
        have hfit := ho (.push (.glob md n)) (by simp)
        simp only [memos, globs] at hb
        obtain ⟨ws, is, g1, g2⟩ := ih m1 m' { map := st.map, strs := st.strs ++ [some md] ++ [some n], last := none } h2 ho'
          (by simp only []; rw [hlen]; simpa [memos] using hml)
          (by intro j hj; have := hmj j hj; simp; omega) (by simp; omega)
        obtain ⟨b1, hb1⟩ := encStr4_ok hfit.2.2.1
        obtain ⟨b2, hb2⟩ := encStr4_ok hfit.2.2.2
        refine ⟨[.op (.push (.str md)), .op .memoize] ++ [.op (.push (.str n)), .op .memoize] ++ .stackGlobal :: ws, b1 :: [0x94] :: b2 :: [0x94] :: [0x93] :: is, ?_, ?_⟩
        · simp only [globs, List.replicate_succ, compile, compStr]
          rw [g1]
          rfl
        · simp only [List.length_append, List.length_singleton] at g2
          simp only [List.cons_append, List.nil_append, items, encW, if_pos hp, hb1, hb2, bumpW, bump, g2]
      | str t => exact generic (some t) trivial (by simp) rfl rfl rfl rfl
      | _ => exact generic none trivial (by simp) rfl rfl rfl rfl
    | memoize =>
      simp only [memos, globs] at hb
      obtain ⟨ws, is, g1, g2⟩ := ih m1 m' { map := st.map ++ [st.strs.length], strs := st.strs ++ [st.last], last := st.last } h2 ho'
        (by simp only [List.length_append, List.length_singleton]; rw [hlen]; simp [memos, hml])
        (by
          intro j hj
          simp only [List.mem_append, List.mem_singleton] at hj
          rcases hj with hj | rfl
          · have := hmj j hj; simp; omega
          · simp) (by simp; omega)
      refine ⟨.op .memoize :: ws, [0x94] :: is, ?_, ?_⟩
      · simp only [globs, compile]
        rw [g1]; rfl
      · simp only [List.length_append, List.length_singleton] at g2
        simp only [items, encW, if_pos hp, bumpW, bump, g2]
    | get i =>
      simp only [memos, globs] at hb
      simp only [step] at h1
      cases hv : m.memo[i]? with
      | none => rw [hv] at h1; cases h1
      | some v =>
        have hi := (List.getElem?_eq_some_iff.1 hv).1
        have hi' : i < st.map.length := by omega
        have hj := hmj _ (List.getElem_mem hi')
        obtain ⟨ws, is, g1, g2⟩ := ih m1 m' { st with last := none } h2 ho' (by simp only []; rw [hlen]; simpa [memos] using hml) hmj hb
        obtain ⟨b1, hb1⟩ := encW_ok (p := p) (c := st.strs.length) (o := .get (st.map[i])) trivial (by intro h; cases h)
          (by intro k hk; cases hk; omega) (by simp)
        refine ⟨.op (.get (st.map[i])) :: ws, b1 :: is, ?_, ?_⟩
        · simp only [globs, compile, List.getElem?_eq_getElem hi']
          rw [g1]; rfl
        · simp only [] at g2
          simp only [items, hb1, bumpW, bump, g2]
    | _ => exact generic none trivial (by simp) rfl rfl rfl rfl

/-- any grouping of the opcodes works, within the frame size limit -/
theorem frameUp_ok {p : Nat} (cuts : List (Bool × Nat)) : ∀ (L : List Bytes), (cuts.map (·.2)).sum = L.length →
    (∀ c ∈ cuts, 1 ≤ c.2 ∧ (c.1 = true → 4 ≤ p)) → L.flatten.length < 2 ^ 63 → ∃ b, frameUp p cuts L = some b := by
  induction cuts with
  | nil =>
    intro L h _ _
    cases L with
    | nil => exact ⟨[], rfl⟩
    | cons => simp at h
  | cons cut cuts ih =>
    obtain ⟨fr, k⟩ := cut
    intro L h hc hL
    simp only [List.map_cons, List.sum_cons] at h
    have hk := hc (fr, k) (by simp)
    have hfl : (L.take k).flatten.length + (L.drop k).flatten.length = L.flatten.length := by
      rw [← List.length_append, ← List.flatten_append, List.take_append_drop]
    obtain ⟨b, hb⟩ := ih (L.drop k) (by rw [List.length_drop]; omega) (fun c hc' => hc c (by simp [hc'])) (by omega)
    cases L with
    | nil => simp only [List.length_nil] at h; have := hk.1; simp only at this; omega
    | cons l L' =>
      cases fr with
      | false => exact ⟨((l :: L').take k).flatten ++ b, by simp only [frameUp, hb, Option.map_some]⟩
      | true =>
        refine ⟨0x95 :: le 8 ((l :: L').take k).flatten.length ++ (((l :: L').take k).flatten ++ b), ?_⟩
        have hcnd : 4 ≤ p ∧ ((l :: L').take k).flatten.length < 2 ^ 63 := ⟨hk.2 rfl, by omega⟩
        simp only [frameUp, hb, Option.map_some, if_pos hcnd]

theorem frameUp_flat {p : Nat} (L : List Bytes) (h : L ≠ []) : frameUp p [(false, L.length)] L = some L.flatten := by
  cases L with
  | nil => exact absurd rfl h
  | cons l L => simp [frameUp]

/-- the entries of the memo: the objects, and at protocol 4 and 5 the names of globals -/
def entries (p : Nat) (ops : List Op) : Nat := if p ≤ 3 then memos ops else memos ops + 2 * globs ops

/-- C05 on bytes: whatever dumps writes has a byte form at each of the protocols 2 to 5, provided the strings are below 4 GiB,
the integers below 2 GiB, the names have no newline, there are no sets at protocols 2 and 3, and no bytes and only ASCII names at protocol 2 (`WorldFits p W`), and fewer than 2^32 objects are memoised.  At protocol 4 and 5 the opcodes
can be cut into frames anywhere (at protocols 2 and 3 there are no frames), if the pickle is below 2^63 bytes. -/
theorem C05_bytes_exist (p : Nat) (hp : p = 2 ∨ p = 3 ∨ p = 4 ∨ p = 5) (W : World) (hw : WF W) (hf : WorldFits p W) (n : Nat) (root : Val)
    (hr : ValFits p root) (ops : List Op) (h : dumps W n root = .ok ops) (hm : entries p ops ≤ 2 ^ 32) :
    ∃ (strings : List (Option Nat × Option Nat)) (N : Nat) (b : Bytes), dumpBytes ⟨p, strings, [(false, N)]⟩ W n root = some (ops, b) ∧
      (b.length < 2 ^ 63 → ∀ cuts : List (Bool × Nat), (cuts.map (·.2)).sum = N → (∀ c ∈ cuts, 1 ≤ c.2 ∧ (c.1 = true → 4 ≤ p)) →
        ∃ b' : Bytes, dumpBytes ⟨p, strings, cuts⟩ W n root = some (ops, b')) := by
  obtain ⟨⟨m, v, hex, _⟩, _⟩ := C05_stream_runs W hw n root ops h
  have hok : ∀ o ∈ ops, OpOk p o := by
    unfold dumps at h
    cases hs : save W n root ⟨[], []⟩ with
    | error e => rw [hs] at h; cases h
    | ok r =>
      obtain ⟨p, o⟩ := r
      rw [hs] at h
      cases h
      exact (em_save hf n root hr _ _ _ hs (by intro e he; simp at he)).2
  have fin : ∀ (ws : List WOp) (is : List Bytes), items p 0 ws = some is →
      (∃ b, encode p [(false, is.length + 1)] ws = some b ∧ (b.length < 2 ^ 63 → ∀ cuts : List (Bool × Nat),
        (cuts.map (·.2)).sum = is.length + 1 → (∀ c ∈ cuts, 1 ≤ c.2 ∧ (c.1 = true → 4 ≤ p)) →
        ∃ b', encode p cuts ws = some b')) := by
    intro ws is hi
    refine ⟨0x80 :: UInt8.ofNat p :: (is ++ [[0x2e]]).flatten, ?_, ?_⟩
    · have := frameUp_flat (p := p) (is ++ [[0x2e]]) (by simp)
      rw [List.length_append, List.length_singleton] at this
      simp only [encode, hi, this, Option.map_some]
    · intro hlen cuts hs hc
      obtain ⟨b', hb'⟩ := frameUp_ok (p := p) cuts (is ++ [[0x2e]]) (by simpa using hs) hc (by
        simp only [List.length_cons] at hlen; omega)
      exact ⟨0x80 :: UInt8.ofNat p :: b', by simp only [encode, hi, hb', Option.map_some]⟩
  by_cases h3 : p = 2 ∨ p = 3
  · have hle : p ≤ 3 := by omega
    simp only [entries, if_pos hle] at hm
    obtain ⟨is, hi⟩ := items_ok (p := p) (by omega) ops ⟨[], [], [], []⟩ m hex hok (by simpa using hm)
    obtain ⟨b, hb, hcut⟩ := fin _ is hi
    refine ⟨[], is.length + 1, b, by simp only [dumpBytes, h, if_pos h3, hb, Option.map_some], ?_⟩
    intro hlen cuts hs hc
    obtain ⟨b', hb'⟩ := hcut hlen cuts hs hc
    exact ⟨b', by simp only [dumpBytes, h, if_pos h3, hb', Option.map_some]⟩
  · have hp4 : p = 4 ∨ p = 5 := by omega
    simp only [entries, if_neg (show ¬ p ≤ 3 by omega)] at hm
    obtain ⟨ws, is, hc, hi⟩ := items4_ok (p := p) (by omega) ops ⟨[], [], [], []⟩ m {} hex hok rfl (by simp) (by simpa using hm)
    obtain ⟨b, hb, hcut⟩ := fin ws is hi
    refine ⟨List.replicate (globs ops) (none, none), is.length + 1, b, ?_, ?_⟩
    · simp only [dumpBytes, h, if_neg h3, if_pos hp4, hc, hb, Option.map_some]
    · intro hlen cuts hs hcs
      obtain ⟨b', hb'⟩ := hcut hlen cuts hs hcs
      exact ⟨b', by simp only [dumpBytes, h, if_neg h3, if_pos hp4, hc, hb', Option.map_some]⟩

/-! ### concrete cases -/

/-- a checkable sufficient condition for every protocol: integers below a million, names in ASCII, no bytes objects -/
def small : Val → Bool
  | .atom (.int i) => decide (i.natAbs < 2 ^ 20)
  | .atom (.str s) => decide ((utf8 s).length < 2 ^ 32)
  | .atom (.bytes _) => false
  | .atom (.glob m n) => decide ((ascii m = true ∧ ascii n = true) ∧ ((10 : UInt8) ∉ utf8 m ∧ (10 : UInt8) ∉ utf8 n) ∧ (utf8 m).length < 2 ^ 32 ∧ (utf8 n).length < 2 ^ 32)
  | _ => true

theorem small_fits : ∀ v : Val, small v = true → ValFits S v := by
  intro v h
  match v with
  | .ref _ => trivial
  | .atom (.int i) => exact ⟨20, of_decide_eq_true h, by decide⟩
  | .atom (.str s) => exact show (utf8 s).length < 2 ^ 32 from of_decide_eq_true h
  | .atom (.glob m n) => exact ⟨.inr (of_decide_eq_true h).1, (of_decide_eq_true h).2⟩
  | .atom (.bytes bs) => exact absurd h (by simp [small])
  | .atom (.float _) => trivial
  | .atom .none => trivial
  | .atom (.bool _) => trivial
  | .atom .emptyTuple => trivial

theorem small_all (vs : List Val) (h : vs.all small = true) : ∀ v ∈ vs, ValFits S v :=
  fun v hv => small_fits v (List.all_eq_true.1 h v hv)

theorem small_kvs (es : List (Val × Val)) (h : es.all (fun e => small e.1 && small e.2) = true) : KVsFit S es := by
  intro e he
  have := List.all_eq_true.1 h e he
  rw [Bool.and_eq_true] at this
  exact ⟨small_fits _ this.1, small_fits _ this.2⟩

theorem ex_fits : WorldFits S Core.Ex.W := by
  refine ⟨?_, small_fits _ ?_, small_fits _ ?_, small_fits _ ?_, small_fits _ ?_, small_fits _ ?_, small_fits _ ?_,
    small_fits _ ?_, small_fits _ ?_, (by intro _ _ h; cases h)⟩
  case refine_1 =>
    intro x
    match x with
    | 0 => exact ⟨trivial, ⟨small_kvs _ (by decide +kernel), small_kvs _ (by decide +kernel)⟩, small_fits _ (by decide +kernel),
        trivial, trivial, small_kvs _ (by decide +kernel), small_kvs _ (by decide +kernel)⟩
    | 1 => exact small_all _ (by decide +kernel)
    | 2 => trivial
    | 3 => exact ⟨⟨trivial, small_all _ (by decide +kernel)⟩, small_all _ (by decide +kernel), small_kvs _ (by decide +kernel), trivial⟩
    | 4 => exact small_fits (.atom (.glob "dill._dill" "_create_code")) (by decide +kernel)
    | 5 => trivial
    | 6 => exact ⟨small_fits _ (by decide +kernel), small_fits _ (by decide +kernel), trivial, small_kvs _ (by decide +kernel),
        small_fits _ (by decide +kernel)⟩
    | 7 => exact ⟨trivial, small_all _ (by decide +kernel), small_kvs _ (by decide +kernel), trivial⟩
    | 8 => exact ⟨trivial, small_all _ (by decide +kernel), small_kvs _ (by decide +kernel), trivial⟩
    | 9 => exact ⟨trivial, small_fits (.atom (.glob "m" "__dict__")) (by decide +kernel), small_fits _ (by decide +kernel),
        trivial, trivial, small_kvs _ (by decide +kernel), small_kvs _ (by decide +kernel)⟩
    | 10 => exact small_all _ (by decide +kernel)
    | 11 => trivial
    | 12 => exact ⟨⟨small_fits _ (by decide +kernel), small_all _ (by decide +kernel)⟩, small_all _ (by decide +kernel),
        small_kvs _ (by decide +kernel), small_kvs _ (by decide +kernel)⟩
    | 13 => exact small_all _ (by decide +kernel)
    | 14 => exact ⟨trivial, small_all _ (by decide +kernel), small_kvs _ (by decide +kernel), trivial⟩
    | _ + 15 => trivial
  all_goals decide +kernel

/-- the cyclic list with the function, the class and the containers has a byte form at each protocol -/
theorem ex_bytes (p : Nat) (hp : p = 2 ∨ p = 3 ∨ p = 4 ∨ p = 5) :
    ∃ (how : How) (ops : List Op) (b : Bytes), how.proto = p ∧ dumpBytes how Core.Ex.W 40 (.ref 7) = some (ops, b) := by
  obtain ⟨ops, h⟩ := Core.Ex.dumps_ok _ Core.Ex.list_ok
  have hm : entries p ops ≤ 2 ^ 32 := by
    have : ∀ o, dumps Core.Ex.W 40 (.ref 7) = .ok o → memos o + 2 * globs o ≤ 200 := by
      intro o ho
      have : (match dumps Core.Ex.W 40 (.ref 7) with | .ok o => decide (memos o + 2 * globs o ≤ 200) | .error _ => true) = true := by
        decide +kernel
      rw [ho] at this
      exact of_decide_eq_true this
    have := this ops h
    unfold entries
    split <;> omega
  obtain ⟨st, N, b, hb, _⟩ := C05_bytes_exist p hp Core.Ex.W Core.Ex.wf ex_fits 40 (.ref 7) trivial ops h hm
  exact ⟨_, ops, b, rfl, hb⟩

theorem ex_dumped (p : Nat) (hp : p = 2 ∨ p = 3 ∨ p = 4 ∨ p = 5) : ∃ d : Dumped, d.how.proto = p ∧ d.root = .ref 7 ∧ d.W = Core.Ex.W := by
  obtain ⟨how, ops, b, hh, h⟩ := ex_bytes p hp
  exact ⟨⟨how, Core.Ex.W, 40, .ref 7, ops, b, Core.Ex.wf, h⟩, hh, rfl, rfl⟩

/-- four pickles in one file, at four protocols -/
example : ∃ ds : List Dumped, ds.map (·.how.proto) = [2, 3, 4, 5] ∧ ds.map (·.root) = [.ref 7, .ref 7, .ref 7, .ref 7] ∧
    ∃ vs r, loadMany (ds.map fun d => kindsOf d.ops)
      ((ds.map (·.bytes)).flatten ++ [1, 2, 3]) = some (vs, r) ∧ vs.length = 4 ∧ r = [1, 2, 3] := by
  obtain ⟨e, k1, k, _⟩ := ex_dumped 2 (.inl rfl)
  obtain ⟨d, h1, h, _⟩ := ex_dumped 3 (.inr (.inl rfl))
  obtain ⟨d', h1', h', _⟩ := ex_dumped 4 (.inr (.inr (.inl rfl)))
  obtain ⟨d'', h1'', h'', _⟩ := ex_dumped 5 (.inr (.inr (.inr rfl)))
  obtain ⟨vs, g1, g2, _⟩ := C68_consecutive [e, d, d', d''] [1, 2, 3]
  exact ⟨[e, d, d', d''], by simp [k1, h1, h1', h1''], by simp [k, h, h', h''], vs, _, g1, g2, rfl⟩

/-- the bytes of `True`, of -300 and of 2 ** 40: as CPython 3.11 writes them -/
example : (dumpBytes ⟨3, [], [(false, 2)]⟩ Core.Ex.W 40 (.atom (.bool true))).map (·.2) = some [0x80, 3, 0x88, 0x2e] := by decide +kernel
example : (dumpBytes ⟨3, [], [(false, 2)]⟩ Core.Ex.W 40 (.atom (.int (-300)))).map (·.2) = some [0x80, 3, 0x4a, 0xd4, 0xfe, 0xff, 0xff, 0x2e] := by
  decide +kernel
example : (dumpBytes ⟨3, [], [(false, 2)]⟩ Core.Ex.W 40 (.atom (.int (2 ^ 40)))).map (·.2) = some [0x80, 3, 0x8a, 6, 0, 0, 0, 0, 0, 1, 0x2e] := by
  decide +kernel

/-- `[collections.OrderedDict, collections.deque, [1]]` -/
def exGlobs : World := { Core.Ex.W with H := fun
  | 0 => .node .list [.ref 1, .ref 2, .ref 3] [] none
  | 1 => .leaf (.glob "collections" "OrderedDict")
  | 2 => .leaf (.glob "collections" "deque")
  | _ => .node .list [.atom (.int 1)] [] none }

/-- its pickle at protocol 4, one frame, the name of the second global's file fetched from the memo: byte for byte what CPython 3.11
writes -/
example : (dumpBytes ⟨4, [(none, none), (some 1, none)], [(true, 20)]⟩ exGlobs 10 (.ref 0)).map (·.2) =
    some [0x80, 0x04, 0x95, 0x34, 0x00, 0x00, 0x00, 0x00, 0x00, 0x00, 0x00, 0x5d, 0x94, 0x28, 0x8c, 0x0b, 0x63, 0x6f, 0x6c, 0x6c, 0x65, 0x63, 0x74, 0x69, 0x6f, 0x6e, 0x73, 0x94, 0x8c, 0x0b, 0x4f, 0x72, 0x64, 0x65, 0x72, 0x65, 0x64, 0x44, 0x69, 0x63, 0x74, 0x94, 0x93, 0x94, 0x68, 0x01, 0x8c, 0x05, 0x64, 0x65, 0x71, 0x75, 0x65, 0x94, 0x93, 0x94, 0x5d, 0x94, 0x4b, 0x01, 0x61, 0x65, 0x2e] := by
  decide +kernel

/-- at protocol 2, where names are two lines of ASCII: byte for byte what CPython 3.11 writes -/
example : (dumpBytes ⟨2, [], [(false, 13)]⟩ exGlobs 10 (.ref 0)).map (·.2) =
    some [0x80, 0x02, 0x5d, 0x71, 0x00, 0x28, 0x63, 0x63, 0x6f, 0x6c, 0x6c, 0x65, 0x63, 0x74, 0x69, 0x6f, 0x6e, 0x73, 0x0a, 0x4f, 0x72, 0x64, 0x65, 0x72, 0x65, 0x64, 0x44, 0x69, 0x63, 0x74, 0x0a, 0x71, 0x01, 0x63, 0x63, 0x6f, 0x6c, 0x6c, 0x65, 0x63, 0x74, 0x69, 0x6f, 0x6e, 0x73, 0x0a, 0x64, 0x65, 0x71, 0x75, 0x65, 0x0a, 0x71, 0x02, 0x5d, 0x71, 0x03, 0x4b, 0x01, 0x61, 0x65, 0x2e] := by
  decide +kernel

/-- a name outside ASCII has no pickle at protocol 2 (`can't pickle global identifier using pickle protocol 2`), and one at protocol 3 -/
example : (dumpBytes ⟨2, [], [(false, 2)]⟩ exGlobs 10 (.atom (.glob "m" "é"))).isSome = false ∧
    (dumpBytes ⟨3, [], [(false, 2)]⟩ exGlobs 10 (.atom (.glob "m" "é"))).isSome = true := by
  decide +kernel

/-- a list of the bytes `b'ab'` and the float 1.5 at protocol 3: byte for byte what CPython writes -/
def exFloat : World := { exGlobs with H := fun
  | 1 => .leaf (.bytes [0x61, 0x62])
  | _ => .node .list [.ref 1, .atom (.float 0x3ff8000000000000)] [] none }
example : (dumpBytes ⟨3, [], [(false, 8)]⟩ exFloat 10 (.ref 0)).map (·.2) =
    some [0x80, 3, 0x5d, 0x71, 0, 0x28, 0x43, 2, 0x61, 0x62, 0x71, 1, 0x47, 0x3f, 0xf8, 0, 0, 0, 0, 0, 0, 0x65, 0x2e] := by
  decide +kernel
example : (match dumpBytes ⟨3, [], [(false, 8)]⟩ exFloat 10 (.ref 0) with
    | some (_, b) => (loadFile [] b).map (·.1) == some (.ref 0, [.node .list [.atom (.bytes [0x61, 0x62]), .atom (.float 0x3ff8000000000000)] [] [] none])
    | none => false) = true := by
  decide +kernel

/-- the same pickle cut in the middle of its frame does not load, the whole one does, and the bytes after it are left -/
example : (match dumpBytes ⟨4, [(none, none), (some 1, none)], [(true, 20)]⟩ exGlobs 10 (.ref 0) with
    | some (_, b) => (loadFile [] (b.take 40)).isNone && (loadFile [] (b ++ [7, 7])).map (·.2) == some [7, 7]
    | none => false) = true := by
  decide +kernel

/-- two frames and an opcode outside -/
example : (dumpBytes ⟨5, [(none, none), (none, none)], [(true, 9), (false, 1), (true, 11)]⟩ exGlobs 10 (.ref 0)).isSome = true := by
  decide +kernel

/-- a dump that failed after two opcodes -/
example : ∃ (is : List Bytes) (b : Bytes), items 4 0 [.op .emptyList, .op .memoize] = some is ∧ frameUp 4 [(true, 2)] is = some b :=
  ⟨_, _, rfl, rfl⟩

end Verif.Wire
