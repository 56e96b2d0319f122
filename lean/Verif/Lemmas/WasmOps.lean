import Verif.Model.Wasm
import Verif.Lemmas.Applier

set_option autoImplicit false

/-!
# Operations of the browser client
-/

namespace Hotmeal

/-- Attributes as they are written. -/
def Attrs.written (a : Attrs) : List (Str × Str) := a.map fun kv => (serName kv.1, kv.2)

/-- Names that are told apart by how they are written, and have no empty prefix. -/
structure PlainNames (N : QualName → Prop) : Prop where
  inj : ∀ q q', N q → N q' → serName q = serName q' → q = q'
  pre : ∀ q, N q → q.prefix_ ≠ some []

theorem List.eraseDups_of_nodup {α : Type} [BEq α] [LawfulBEq α] {l : List α} (h : l.Nodup) :
    l.eraseDups = l := by
  induction l with
  | nil => rfl
  | cons a l ih =>
    rw [List.nodup_cons] at h
    rw [List.eraseDups_cons, List.filter_eq_self.2, ih h.2]
    intro x hx
    simp only [bne_iff_ne, ne_eq, Bool.not_eq_eq_eq_not, Bool.not_true, beq_eq_false_iff_ne]
    rintro rfl
    exact h.1 hx

namespace Wasm

theorem domName_eq {q : QualName} (h : q.prefix_ ≠ some []) : domName q = serName q := by
  unfold domName serName
  split
  · next e => simp [e]
  · next p e =>
    have : p ≠ [] := by rintro rfl; exact h e
    simp [e, this]

theorem setAttribute_new {name : Str} (value : Str) {a : Attrs} (h : name ∉ a.written.map Prod.fst) :
    (setAttribute name value a).written = a.written ++ [(name, value)] := by
  induction a with
  | nil => simp [setAttribute, Attrs.written, serName]
  | cons kv a ih =>
    obtain ⟨k, v⟩ := kv
    simp only [Attrs.written, List.map_cons, List.mem_cons, not_or] at h
    simp only [setAttribute]
    rw [if_neg (fun e => h.1 e.symm)]
    have := ih h.2
    simp only [Attrs.written, List.map_cons, List.cons_append] at this ⊢
    rw [this]

theorem setAttribute_all (l : List (Str × Str)) (a : Attrs)
    (h : (a.written ++ l).map Prod.fst |>.Nodup) :
    (l.foldl (fun acc kv => setAttribute kv.1 kv.2 acc) a).written = a.written ++ l := by
  induction l generalizing a with
  | nil => simp
  | cons kv l ih =>
    have hn : kv.1 ∉ a.written.map Prod.fst := by
      rw [List.map_append, List.nodup_append] at h
      intro hm
      exact h.2.2 _ hm _ (by simp) rfl
    have e := setAttribute_new kv.2 hn
    rw [List.foldl_cons, ih, e]
    · simp
    · rw [e]; simpa using h

theorem written_nodup {N : QualName → Prop} (hN : PlainNames N) {a : Attrs} (ha : ∀ kv ∈ a, N kv.1)
    (hk : a.keys.Nodup) : (a.written.map Prod.fst).Nodup := by
  simp only [Attrs.keys] at hk
  simp only [Attrs.written, List.map_map]
  rw [List.Nodup, List.pairwise_map] at hk ⊢
  exact hk.imp_of_mem fun h1 h2 hne e => hne (hN.inj _ _ (ha _ h1) (ha _ h2) e)

theorem setAttrs_written {N : QualName → Prop} (hN : PlainNames N) {a : Attrs}
    (ha : ∀ kv ∈ a, N kv.1) (hk : a.keys.Nodup) : (setAttrs a).written = a.written := by
  have e : setAttrs a = a.written.foldl (fun acc kv => setAttribute kv.1 kv.2 acc) [] := by
    simp only [setAttrs, Attrs.written, List.foldl_map]
    have : ∀ (l : Attrs) (acc : Attrs), (∀ kv ∈ l, N kv.1) →
        l.foldl (fun acc kv => setAttribute (domName kv.1) kv.2 acc) acc =
        l.foldl (fun acc kv => setAttribute (serName kv.1) kv.2 acc) acc := by
      intro l
      induction l with
      | nil => intros; rfl
      | cons kv l ih =>
        intro acc hl
        simp only [List.foldl_cons]
        rw [domName_eq (hN.pre _ (hl kv (by simp))), ih _ fun x hx => hl x (by simp [hx])]
    exact this a [] ha
  rw [e, setAttribute_all]
  · rfl
  · simpa [Attrs.written] using written_nodup hN ha hk

theorem clearAttrs_eq {a : Attrs} (h : (a.written.map Prod.fst).Nodup) : clearAttrs a = [] := by
  have e : a.written.map Prod.fst = a.map fun kv => serName kv.1 := by
    simp [Attrs.written, List.map_map, Function.comp_def]
  rw [e] at h
  unfold clearAttrs
  rw [List.eraseDups_of_nodup h]
  clear h e
  induction a with
  | nil => rfl
  | cons kv a ih =>
    simp only [List.map_cons, List.foldl_cons]
    have : removeAttribute (serName kv.1) (kv :: a) = a := by
      simp [removeAttribute]
    rw [this]
    exact ih

theorem find?_of_unique {α : Type} {p : α → Bool} {l : List α} {x : α} (hx : x ∈ l) (hp : p x = true)
    (hu : ∀ y ∈ l, p y = true → y = x) : l.find? p = some x := by
  cases e : l.find? p with
  | none => rw [List.find?_eq_none] at e; exact absurd hp (e x hx)
  | some y => rw [hu y (List.mem_of_find?_eq_some e) (List.find?_some e)]

theorem existing_eq {N : QualName → Prop} (hN : PlainNames N) {a a' : Attrs} (ha : ∀ kv ∈ a, N kv.1)
    (hk : a.keys.Nodup) (hw : a'.written = a.written) {q : QualName} (hq : N q) :
    existing a' (serName q) = (a.find? (fun kv => kv.1 = q)).map Prod.snd := by
  have e1 : existing a' (serName q) =
      (a'.written.reverse.find? fun kv => decide (kv.1 = serName q)).map Prod.snd := by
    unfold existing Attrs.written
    rw [← List.map_reverse, List.find?_map, Option.map_map]
    rfl
  rw [e1, hw]
  have hnd := written_nodup hN ha hk
  cases e : a.find? (fun kv => kv.1 = q) with
  | none =>
    rw [List.find?_eq_none] at e
    rw [List.find?_eq_none.2]
    · rfl
    · intro x hx
      rw [List.mem_reverse] at hx
      obtain ⟨kv, hkv, rfl⟩ := List.mem_map.1 hx
      simp only [decide_eq_true_eq]
      intro e2
      exact e kv hkv (by simpa using hN.inj _ _ (ha kv hkv) hq e2)
  | some kv =>
    have h1 := List.mem_of_find?_eq_some e
    have h2 := List.find?_some e
    simp only [decide_eq_true_eq] at h2
    rw [find?_of_unique (x := (serName q, kv.2))]
    · rfl
    · rw [List.mem_reverse]
      exact List.mem_map.2 ⟨kv, h1, by rw [h2]⟩
    · simp
    · intro y hy he
      rw [List.mem_reverse] at hy
      simp only [decide_eq_true_eq] at he
      obtain ⟨kv', hkv', rfl⟩ := List.mem_map.1 hy
      simp only at he
      have h3 := hN.inj _ _ (ha kv' hkv') hq he
      have : kv' = kv := by
        simp only [Attrs.keys] at hk
        rw [List.Nodup, List.pairwise_map] at hk
        have hnd' := hk
        obtain ⟨i, hi, ei⟩ := List.mem_iff_getElem.1 hkv'
        obtain ⟨j, hj, ej⟩ := List.mem_iff_getElem.1 h1
        rw [List.pairwise_iff_getElem] at hnd'
        rcases Nat.lt_trichotomy i j with hlt | heq | hlt
        · exact absurd (by rw [ei, ej, h3, h2]) (hnd' i j hi hj hlt)
        · subst heq; rw [← ei, ← ej]
        · exact absurd (by rw [ei, ej, h3, h2]) (hnd' j i hj hi hlt)
      rw [this, h2]

/-- Names of the changes of an `UpdateProps`. -/
def ChangeNames (N : QualName → Prop) (changes : List PropChange) : Prop :=
  ∀ c ∈ changes, ∀ q, c.name = .attr q → N q

theorem updateAttrs_written {N : QualName → Prop} (hN : PlainNames N) {a a' : Attrs}
    (ha : ∀ kv ∈ a, N kv.1) (hk : a.keys.Nodup) (hw : a'.written = a.written)
    {changes : List PropChange} (hn : (changes.map PropChange.name).Nodup)
    (hc : ChangeNames N changes) :
    (updateAttrs a' changes).written = (rebuildAttrs a changes).written ∧
      (∀ kv ∈ rebuildAttrs a changes, N kv.1) ∧ (rebuildAttrs a changes).keys.Nodup := by
  have hrN : ∀ kv ∈ rebuildAttrs a changes, N kv.1 := by
    intro kv hkv
    obtain ⟨c, hcm, e⟩ := List.mem_filterMap.1 hkv
    split at e
    · cases e
    · next q eq => cases e; exact hc c hcm q eq
  have hrk : (rebuildAttrs a changes).keys.Nodup := by
    simp only [Attrs.keys, rebuildAttrs]
    rw [List.Nodup, List.pairwise_map, List.pairwise_filterMap]
    rw [List.Nodup, List.pairwise_map] at hn
    refine hn.imp ?_
    intro c c' hne x hx y hy
    split at hx
    · cases hx
    · next q eq =>
      split at hy
      · cases hy
      · next q' eq' =>
        cases hx; cases hy
        simp only
        rintro rfl
        exact hne (by rw [eq, eq'])
  refine ⟨?_, hrN, hrk⟩
  have e : updateAttrs a' changes =
      (rebuildAttrs a changes).written.foldl (fun acc kv => setAttribute kv.1 kv.2 acc)
        (clearAttrs a') := by
    simp only [updateAttrs, Attrs.written, rebuildAttrs, List.foldl_map]
    generalize clearAttrs a' = acc
    clear hrN hrk hn
    induction changes generalizing acc with
    | nil => rfl
    | cons c cs ih =>
      obtain ⟨nm, v⟩ := c
      have hcs : ChangeNames N cs := fun x hx => hc x (List.mem_cons_of_mem _ hx)
      cases nm with
      | text => exact ih hcs acc
      | attr q =>
        simp only [List.foldl_cons, List.filterMap_cons]
        rw [← ih hcs]
        cases v with
        | some v => rfl
        | none =>
          have := existing_eq hN ha hk hw (hc ⟨.attr q, none⟩ (by simp) q rfl)
          simp only [this]
  have hcl : clearAttrs a' = [] := by
    apply clearAttrs_eq
    rw [hw]; exact written_nodup hN ha hk
  rw [e, hcl, setAttribute_all]
  · rfl
  · simpa [Attrs.written] using written_nodup hN hrN hrk

/-! ### Tree operations -/

theorem replaceByEmpty_repl {E : Arena NodeData} (h : E.WF) {n p : Nat} (hp : E.parent n = some p) :
    ∃ E', Wasm.replaceByEmpty E n = .ok E' ∧ E.Replaced E' n p Document.emptyText := by
  obtain ⟨A1, A', e1, e2, hr⟩ := h.replace hp Document.emptyText
  have hlt := h.lt_of_parent _ _ hp
  refine ⟨A', ?_, hr⟩
  have ha : ¬ ((E.newNode Document.emptyText).1.isAncestorOrSelf E.next
      (E.newNode Document.emptyText).1.next p = true) := by
    rw [(h.newNode _).isAncestorOrSelf_iff]
    exact not_anc_new h _ (by omega)
  have e3 : replaceChild (E.newNode Document.emptyText).1 p E.next n = .ok A' := by
    unfold replaceChild
    rw [if_neg ha, if_neg (by omega), e1]
    simp only [bind, Except.bind, e2]
  simp only [Wasm.replaceByEmpty, hp]
  exact e3

theorem replaceChild_put {E : Arena NodeData} (h : E.WF) {x p pos occ : Nat}
    (hocc : (E.children p)[pos]? = some occ) (hx : x < E.next) (hxp : E.parent x = none)
    (hanc : ¬ E.Anc x p) :
    ∃ E', replaceChild E p x occ = .ok E' ∧ DPut E E' x p pos occ := by
  have hmem : occ ∈ E.children p := List.mem_of_getElem? hocc
  have hop : E.parent occ = some p := (h.mem_iff _ _).1 hmem
  have hne : x ≠ occ := by rintro rfl; rw [hop] at hxp; cases hxp
  obtain ⟨hlt, eocc⟩ := List.getElem?_eq_some_iff.1 hocc
  obtain ⟨A, e, w, n, hpar, c, d⟩ := h.insert_at hocc hx hxp hanc
  refine ⟨A.detach occ, ?_, w.detach occ, ?_, hocc, ?_, ?_⟩
  · unfold replaceChild
    rw [if_neg (by rw [h.isAncestorOrSelf_iff]; exact hanc), if_neg hne]
    simp only [e, bind, Except.bind]
  · rw [Arena.detach_next, n]
  · intro m
    rw [w.detach_children, c]
    by_cases hm : m = p
    · rw [if_pos hm, if_pos hm, List.set_eq_take_drop hlt, List.drop_eq_getElem_cons hlt, eocc]
      have hs : E.children p = (E.children p).take pos ++ occ :: (E.children p).drop (pos + 1) := by
        conv => lhs; rw [← List.take_append_drop pos (E.children p), List.drop_eq_getElem_cons hlt,
          eocc]
      have hnd := h.nodup p
      rw [hs, List.nodup_append] at hnd
      obtain ⟨_, h2, h3⟩ := hnd
      rw [List.nodup_cons] at h2
      rw [List.filter_append, List.filter_cons, if_pos (by simpa using hne), List.filter_cons,
        if_neg (by simp)]
      congr 1
      · rw [List.filter_eq_self]; intro y hy; simp; rintro rfl; exact h3 y hy y (by simp) rfl
      · congr 1
        rw [List.filter_eq_self]; intro y hy; simp; rintro rfl; exact h2.1 hy
    · rw [if_neg hm, if_neg hm, List.filter_eq_self]
      intro y hy
      simp only [ne_eq, decide_eq_true_eq]
      rintro rfl
      rw [h.mem_iff, hop] at hy; cases hy; exact hm rfl
  · intro m; rw [Arena.detach_data, d]

theorem fill_append_app {E : Arena NodeData} (h : E.WF) {x p pos : Nat} (hp : p < E.next)
    (hx : x < E.next) (hxp : E.parent x = none) (hanc : ¬ E.Anc x p)
    (hpos : (E.children p).length ≤ pos) :
    ∃ E', appendChild (fillGaps E p (pos - (E.children p).length)) p x = .ok E' ∧
      DApp E E' x p pos := by
  rw [docFillGaps_eq]
  obtain ⟨E', e, w, n, -, c, d⟩ := h.fill_append hp hx hxp hanc Document.emptyText
    (pos - (E.children p).length)
  refine ⟨E', ?_, w, n, ?_, ⟨[], List.nil_suffix, ?_⟩, ?_⟩
  · unfold Arena.append at e
    unfold appendChild
    split at e
    · cases e
    · next hn => rw [if_neg hn]; exact e
  · intro m hm; rw [c, if_neg hm]
  · rw [c, if_pos rfl, List.take_of_length_le hpos]
  · intro m; rw [d, n]

end Wasm
end Hotmeal
