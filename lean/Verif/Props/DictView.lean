import Verif.Model.DictView
/-! C46: dictionary views keep their contents and order. -/
set_option linter.unusedSimpArgs false
set_option linter.unusedSectionVars false
namespace Verif.DictView
variable {K V : Type} [DecidableEq K]

/-- copying one element of a view -/
def Elem.copy (ck : K → K) (cv : V → V) : Elem K V → Elem K V
  | .key k => .key (ck k)
  | .value v => .value (cv v)
  | .item k v => .item (ck k) (cv v)

theorem assign_new (d : List (K × V)) (k : K) (v : V) (h : k ∉ d.map (·.1)) : assign d k v = d ++ [(k, v)] := by
  induction d with
  | nil => rfl
  | cons e d ih =>
    obtain ⟨k', v'⟩ := e
    simp only [List.map_cons, List.mem_cons, not_or] at h
    simp [assign, Ne.symm h.1, ih h.2]

theorem fromPairs_nodup (es : List (K × V)) : ∀ d : List (K × V), ((d ++ es).map (·.1)).Nodup →
    fromPairs d es = d ++ es := by
  induction es with
  | nil => intro d _; simp [fromPairs]
  | cons e es ih =>
    obtain ⟨k, v⟩ := e
    intro d h
    have hk : k ∉ d.map (·.1) := by
      intro hk
      rw [List.map_append, List.nodup_append] at h
      exact h.2.2 k hk k (by simp) rfl
    simp only [fromPairs]
    rw [assign_new d k v hk, ih]
    · simp
    · simpa using h

theorem fromPairs_id (es : List (K × V)) (h : (es.map (·.1)).Nodup) : fromPairs [] es = es := by
  simpa using fromPairs_nodup es [] (by simpa using h)

theorem nodup_map_key {ck : K → K} (hck : Function.Injective ck) (cv : V → V) (es : List (K × V))
    (h : (es.map (·.1)).Nodup) : ((es.map fun e => (ck e.1, cv e.2)).map (·.1)).Nodup := by
  rw [List.map_map]
  have : (fun x : K × V => x.1) ∘ (fun e : K × V => (ck e.1, cv e.2)) = ck ∘ fun e : K × V => e.1 := rfl
  rw [this, ← List.map_map]
  have : ∀ l : List K, l.Nodup → (l.map ck).Nodup := by
    intro l hl
    induction l with
    | nil => simp
    | cons a l ih =>
      simp only [List.nodup_cons, List.map_cons, List.mem_map, not_exists, not_and] at hl ⊢
      exact ⟨fun b hb e => hl.1 (hck e ▸ hb), ih hl.2⟩
  exact this _ h

theorem enum_fst (c : Consts K V) (vs : List V) : ∀ n, (enum c n vs).map (·.1) =
    (List.range' n vs.length).map c.num := by
  induction vs with
  | nil => intro n; rfl
  | cons v vs ih => intro n; simp [enum, ih, List.range'_succ]

theorem enum_snd (c : Consts K V) (vs : List V) : ∀ n, (enum c n vs).map (·.2) = vs := by
  induction vs with
  | nil => intro n; rfl
  | cons v vs ih => intro n; simp [enum, ih]

theorem enum_nodup (c : Consts K V) (hn : Function.Injective c.num) (vs : List V) (n : Nat) :
    ((enum c n vs).map (·.1)).Nodup := by
  rw [enum_fst]
  have : ∀ l : List Nat, l.Nodup → (l.map c.num).Nodup := by
    intro l hl
    induction l with
    | nil => simp
    | cons a l ih =>
      simp only [List.nodup_cons, List.map_cons, List.mem_map, not_exists, not_and] at hl ⊢
      exact ⟨fun b hb e => hl.1 (hn e ▸ hb), ih hl.2⟩
  exact this _ List.nodup_range'

theorem elems_copy (kind : View) (ck : K → K) (cv : V → V) (es : List (K × V)) :
    elems kind (es.map fun e => (ck e.1, cv e.2)) = (elems kind es).map (Elem.copy ck cv) := by
  cases kind <;> simp [elems, Elem.copy]

/-- C46: under both strategies the copied view is of the same kind and shows the copies of the original's
elements, in the same order. -/
theorem C46_elements (trick : Bool) (c : Consts K V) (hn : Function.Injective c.num) (ck : K → K)
    (hck : Function.Injective ck) (cv : V → V) (H : Nat → Mapping K V)
    (hwf : ∀ a, ((H a).entries.map (·.1)).Nodup) (new : Nat) (v : ViewObj) :
    let r := copyView trick c ck cv H new v
    r.1.kind = v.kind ∧
    elems r.1.kind (r.2 r.1.mapping).entries = (elems v.kind (H v.mapping).entries).map (Elem.copy ck cv) := by
  obtain ⟨kind, a⟩ := v
  have hid := fromPairs_id _ (hwf a)
  have hcp := fromPairs_id _ (nodup_map_key hck cv _ (hwf a))
  cases trick with
  | true =>
    simp only [copyView, saveView, proxyOr]
    cases hc : (H a).cls <;> simp [loadArg, hid, hcp, elems_copy]
  | false =>
    simp only [copyView, saveView, saveOther]
    cases kind with
    | keys =>
      have h1 : ((((H a).entries.map fun e => (e.1, c.none'))).map (·.1)).Nodup := by
        simpa [List.map_map, Function.comp_def] using hwf a
      have h2 := fromPairs_id _ (nodup_map_key hck cv _ h1)
      simp only [loadArg, if_true, fromPairs_id _ h1]
      rw [h2]
      simp [elems, Elem.copy]
    | values =>
      have h1 := enum_nodup c hn ((H a).entries.map (·.2)) 0
      have h2 := fromPairs_id _ (nodup_map_key hck cv _ h1)
      simp only [loadArg, if_true, fromPairs_id _ h1]
      rw [h2]
      refine ⟨trivial, ?_⟩
      have h3 := enum_snd c ((H a).entries.map (·.2)) 0
      have : ∀ (es : List (K × V)), (elems .values es : List (Elem K V)) = (es.map (·.2)).map .value := by
        intro es; simp [elems]
      simp only [this, List.map_map]
      have h4 : (enum c 0 ((H a).entries.map (·.2))).map (cv ∘ fun e => e.2) =
          ((H a).entries.map (·.2)).map cv := by
        rw [← List.map_map, h3]
      calc (enum c 0 ((H a).entries.map (·.2))).map ((Elem.value ∘ fun x => x.2) ∘ fun e => (ck e.1, cv e.2))
          = ((enum c 0 ((H a).entries.map (·.2))).map (cv ∘ fun e => e.2)).map Elem.value := by
            rw [List.map_map]; rfl
        _ = _ := by rw [h4]; simp [Elem.copy, Function.comp_def]
    | items => simp [loadArg, hid, hcp, elems_copy]

/-- C46, sharing: with the mapping-proxy trick the copied view of an exact dict is a view of that dict's copy, so
a later assignment to the copied dict shows in the copied view. -/
theorem C46_view_of_copy_partial (c : Consts K V) (ck : K → K) (cv : V → V) (H : Nat → Mapping K V) (new : Nat)
    (v : ViewObj) (h : (H v.mapping).cls = .dict) :
    (copyView true c ck cv H new v).1.mapping = v.mapping := by
  simp [copyView, saveView, proxyOr, h, loadArg]

/-- C46 fails to that extent for an OrderedDict (or any subclass of dict): although the trick is available, the
copied view shows a separate mapping, not the copied dict. -/
theorem C46_odict_view_detached (c : Consts K V) (ck : K → K) (cv : V → V) (H : Nat → Mapping K V) (new : Nat)
    (v : ViewObj) (h : (H v.mapping).cls ≠ .dict) (hf : v.mapping ≠ new) :
    (copyView true c ck cv H new v).1.mapping ≠ v.mapping := by
  cases hc : (H v.mapping).cls with
  | dict => exact absurd hc h
  | odict => simpa [copyView, saveView, proxyOr, hc, loadArg] using hf.symm
  | sub n => simpa [copyView, saveView, proxyOr, hc, loadArg] using hf.symm

/-- the type of the copied view is that of the view: a view of an OrderedDict (odict_keys, …) exactly if the original is one -/
theorem C46_view_type (trick : Bool) (c : Consts K V) (ck : K → K) (cv : V → V) (H : Nat → Mapping K V) (new : Nat) (v : ViewObj) :
    let r := copyView trick c ck cv H new v
    (r.2 r.1.mapping).cls = .odict ↔ (H v.mapping).cls = .odict := by
  obtain ⟨kind, a⟩ := v
  cases trick with
  | true =>
    simp only [copyView, saveView, proxyOr]
    cases hc : (H a).cls <;> simp [loadArg, hc]
  | false =>
    simp only [copyView, saveView, saveOther]
    cases kind <;> cases hc : (H a).cls <;> simp [loadArg, viewCls]

/-- C46 for mapping proxies: the copied proxy shows the copies of the entries in order, under both strategies; and
with the trick a proxy of an exact dict stays a proxy of that dict's copy. -/
theorem C46_proxy (trick : Bool) (ck : K → K) (hck : Function.Injective ck) (cv : V → V) (H : Nat → Mapping K V)
    (hwf : ∀ a, ((H a).entries.map (·.1)).Nodup) (new : Nat) (a : Nat) :
    let r := copyProxy trick ck cv H new a
    (r.2 r.1).entries = (H a).entries.map (fun e => (ck e.1, cv e.2)) ∧
    (trick = true → (H a).cls = .dict → r.1 = a) := by
  have hid := fromPairs_id _ (hwf a)
  have hcp := fromPairs_id _ (nodup_map_key hck cv _ (hwf a))
  cases trick with
  | true =>
    simp only [copyProxy, saveProxy, proxyOr]
    cases hc : (H a).cls <;> simp [loadArg, hid, hcp]
  | false => simp [copyProxy, saveProxy, loadArg, hid, hcp]

/-! ### concrete cases -/

def exH : Nat → Mapping Nat String
  | 0 => ⟨.dict, [(3, "c"), (1, "a"), (2, "b")]⟩
  | 1 => ⟨.odict, [(2, "y"), (1, "x")]⟩
  | _ => ⟨.dict, []⟩
def exC : Consts Nat String := ⟨"None", id⟩
example : ∀ a, ((exH a).entries.map (·.1)).Nodup := by
  intro a
  match a with
  | 0 => decide
  | 1 => decide
  | _ + 2 => simp [exH]
example : let r := copyView false exC id id exH 9 ⟨.values, 0⟩
    elems r.1.kind (r.2 r.1.mapping).entries = [.value "c", .value "a", .value "b"] := by decide
example : (copyView true exC id id exH 9 ⟨.keys, 0⟩).1 = ⟨.keys, 0⟩ := by decide
example : (copyView true exC id id exH 9 ⟨.keys, 1⟩).1 = ⟨.keys, 9⟩ := by decide

end Verif.DictView
