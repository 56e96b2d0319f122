import Verif.Lemmas.Rewrite
import Verif.Spec.Sound
import Verif.Props.Apply

set_option autoImplicit false
set_option linter.unusedSectionVars false

/-!
# The library rewrites trees
-/

namespace Hotmeal

/-! ### Detaching and copying -/

theorem detachAll_next (A : Arena NodeData) (ns : List Nat) : (detachAll A ns).next = A.next := by
  unfold detachAll
  induction ns generalizing A with
  | nil => rfl
  | cons n ns ih => rw [List.foldl_cons, ih, Arena.detach_next]

theorem detachAll_data (A : Arena NodeData) (ns : List Nat) : (detachAll A ns).data = A.data := by
  unfold detachAll
  induction ns generalizing A with
  | nil => rfl
  | cons n ns ih => rw [List.foldl_cons, ih, Arena.detach_data]

theorem detachAll_wf {A : Arena NodeData} (h : A.WF) (ns : List Nat) : (detachAll A ns).WF := by
  unfold detachAll
  induction ns generalizing A with
  | nil => exact h
  | cons n ns ih => rw [List.foldl_cons]; exact ih (h.detach n)

theorem detachAll_children {A : Arena NodeData} (h : A.WF) (ns : List Nat) (p : Nat) :
    (detachAll A ns).children p = (A.children p).filter fun m => decide (m ∉ ns) := by
  unfold detachAll
  induction ns generalizing A with
  | nil => rw [List.filter_eq_self.2 (by simp)]; rfl
  | cons n ns ih =>
    rw [List.foldl_cons, ih (h.detach n), h.detach_children, List.filter_filter]
    congr 1
    funext m
    simp only [List.mem_cons, not_or]
    by_cases h1 : m = n <;> by_cases h2 : m ∈ ns <;> simp [h1, h2]

/-- Detaching the children of one node. -/
theorem detachAll_kids {A : Arena NodeData} (h : A.WF) (n m : Nat) :
    (detachAll A (A.children n)).children m = if m = n then [] else A.children m := by
  rw [detachAll_children h]
  split
  · next e => subst e; rw [List.filter_eq_nil_iff]; intro x hx; simp [hx]
  · next e =>
    rw [List.filter_eq_self]
    intro x hx
    simp only [decide_eq_true_eq]
    intro hx'
    rw [h.mem_iff] at hx hx'
    rw [hx] at hx'; exact e (Option.some.inj hx')

theorem Grows.trans {A B C : Arena NodeData} (h1 : Grows A B) (h2 : Grows B C) : Grows A C := by
  have := h1.le
  exact ⟨h2.wf, Nat.le_trans h1.le h2.le,
    fun i hi => by rw [h2.parent i (by omega), h1.parent i hi],
    fun i hi => by rw [h2.children i (by omega), h1.children i hi],
    fun i hi => by rw [h2.data i (by omega), h1.data i hi]⟩

/-- A builder that makes a copy of the tree `t`. -/
def Builds (r : Arena NodeData → Res (Arena NodeData × Nat)) (t : Html) : Prop :=
  ∀ A : Arena NodeData, A.WF → ∃ A' m, r A = .ok (A', m) ∧ Grows A A' ∧ A.next ≤ m ∧ m < A'.next ∧
    A'.parent m = none ∧ A'.tree m = t

/-- Building trees one after the other and appending them. -/
theorem appendAll_builds : ∀ (rs : List (Arena NodeData → Res (Arena NodeData × Nat))) (ts : List Html)
    (A : Arena NodeData) (n : Nat), A.WF → n < A.next → rs.length = ts.length →
    (∀ (i : Nat) r t, rs[i]? = some r → ts[i]? = some t → Builds r t) →
    ∃ A' ids, rs.foldlM (fun A r => do
        let (A, c) ← r A
        A.append n c) A = .ok A' ∧ GrowsAt n A A' ∧
      A'.children n = A.children n ++ ids ∧ ids.map A'.tree = ts ∧ ∀ i ∈ ids, A.next ≤ i := by
  intro rs
  induction rs with
  | nil =>
    intro ts A n h hn hlen hb
    cases ts with
    | nil => exact ⟨A, [], rfl, ⟨h, Nat.le_refl _, fun _ _ => rfl, fun _ _ _ => rfl,
        fun _ _ => rfl⟩, by simp, rfl, by simp⟩
    | cons => simp at hlen
  | cons r rs ih =>
    intro ts A n h hn hlen hb
    cases ts with
    | nil => simp at hlen
    | cons t ts =>
      obtain ⟨A1, m, e1, h1, hm, hm', hmp, htm⟩ := hb 0 r t rfl rfl A h
      have hle := h1.le
      have hanc : ¬ A1.Anc m n := by
        intro ha
        have := desc_new h h1.parent hm ha
        omega
      have e2 := h1.wf.append_ok hanc
      have hw2 := h1.wf.appendRaw (p := n) (c := m) (by omega) hm' hanc
      have er := Arena.appendRaw_of_parent_none (p := n) hmp
      have hch2 : ∀ i, (A1.appendRaw n m).children i =
          if i = n then A1.children n ++ [m] else A1.children i := by
        intro i
        rw [er]
        show Arena.upd A1.children n _ i = _
        rw [Arena.upd_apply]
      have hda2 : (A1.appendRaw n m).data = A1.data := by rw [er]
      have hnx2 : (A1.appendRaw n m).next = A1.next := by rw [er]
      have hpa2 : ∀ i, (A1.appendRaw n m).parent i = if i = m then some n else A1.parent i := by
        intro i
        rw [er]
        show Arena.upd A1.parent m _ i = _
        rw [Arena.upd_apply]
      obtain ⟨A', ids, e3, h3, hk, ht, hge⟩ := ih ts (A1.appendRaw n m) n hw2
        (by rw [hnx2]; omega) (by simpa using hlen) fun i r t hr ht => hb (i + 1) r t hr ht
      have hle3 : A1.next ≤ A'.next := by have := h3.le; rw [hnx2] at this; exact this
      refine ⟨A', m :: ids, ?_, ⟨h3.wf, by omega, ?_, ?_, ?_⟩, ?_, ?_, ?_⟩
      · rw [List.foldlM_cons]
        simp only [e1, e2, bind, Except.bind]
        exact e3
      · intro i hi
        rw [h3.parent i (by rw [hnx2]; omega), hpa2, if_neg (by omega), h1.parent i hi]
      · intro i hi hne
        rw [h3.children i (by rw [hnx2]; omega) hne, hch2, if_neg hne, h1.children i hi]
      · intro i hi
        rw [h3.data i (by rw [hnx2]; omega), hda2]
        exact h1.data i hi
      · rw [hk, hch2, if_pos rfl, h1.children n hn]; simp
      · rw [List.map_cons, ht, ← htm]
        congr 1
        apply Arena.tree_congr h1.wf h3.wf
        intro x hx
        have hx1 := desc_new h h1.parent hm hx
        have hx2 := lt_of_anc h1.wf hm' hx
        rw [h3.children x (by rw [hnx2]; omega) (by omega), hch2, if_neg (by omega),
          h3.data x (by rw [hnx2]; omega), hda2]
        exact ⟨rfl, rfl⟩
      · intro i hi
        rcases List.mem_cons.1 hi with rfl | hi
        · exact hm
        · have := hge i hi; rw [hnx2] at this; omega

/-- `clone_subtree_from` copies the tree. -/
theorem cloneSubtree_builds {src : Arena NodeData} (hs : src.WF) (n : Nat) :
    Builds (cloneSubtree src n) (src.tree n) := by
  refine hs.induct_down (P := fun n => Builds (cloneSubtree src n) (src.tree n)) ?_ n
  intro n ih A h
  have hn := Grows.newNode h (src.data n)
  obtain ⟨A', ids, e, hA', hk, ht, _⟩ := appendAll_builds ((src.children n).map (cloneSubtree src))
    ((src.children n).map src.tree) (A.newNode (src.data n)).1 A.next hn.wf (by simp) (by simp) (by
      intro i r t hr ht
      rw [List.getElem?_map] at hr ht
      cases ec : (src.children n)[i]? with
      | none => rw [ec] at hr; cases hr
      | some c =>
        rw [ec] at hr ht
        cases hr; cases ht
        exact ih c (List.mem_of_getElem? ec))
  have hle := hA'.le
  simp only [Arena.newNode_next] at hle
  have hd : A'.data A.next = src.data n := by
    rw [hA'.data _ (by simp), Arena.newNode_data, if_pos rfl]
  refine ⟨A', A.next, ?_, ?_, Nat.le_refl _, by omega, ?_, ?_⟩
  · unfold cloneSubtree at e ⊢
    rw [hs.fold_eq]
    simp only [Arena.newNode_snd, bind, Except.bind] at e ⊢
    rw [e]
  · refine ⟨hA'.wf, by omega, ?_, ?_, ?_⟩
    · intro i hi
      rw [hA'.parent i (by simp; omega)]; exact hn.parent i hi
    · intro i hi
      rw [hA'.children i (by simp; omega) (by omega)]; exact hn.children i hi
    · intro i hi
      rw [hA'.data i (by simp; omega)]; exact hn.data i hi
  · rw [hA'.parent _ (by simp), h.newNode_parent]
    exact h.parent_ge (Nat.le_refl _)
  · rw [hA'.wf.tree_eq, hs.tree_eq, hd, Arena.forest, Arena.forest, hk, h.newNode_children,
      h.children_ge (Nat.le_refl _), List.nil_append, ht]

/-! ### One patch -/

/-- The children of a tree. -/
def Html.kids : Html → List Html
  | .element _ _ cs => cs
  | _ => []

/-- The content of the first `div` of the page that the library parses for `OpaqueChanged`. -/
def parsedContent (parse : Str → Document) (s : Str) : List Html :=
  match (parse ("<html><body><div>".toList ++ s ++ "</div></body></html>".toList)).bodyForest with
  | [] => []
  | t :: _ => t.kids

theorem wrapperChildren_tree {parse : Str → Document} (hp : ∀ s, (parse s).arena.Sound) (s : Str) :
    (wrapperChildren (parse (opaqueWrapper s))).map (parse (opaqueWrapper s)).arena.tree =
      parsedContent parse s := by
  have hS := hp (opaqueWrapper s)
  unfold parsedContent wrapperChildren Document.bodyForest
  show _ = match (match (parse (opaqueWrapper s)).body with
    | none => ([] : List Html)
    | some b => (parse (opaqueWrapper s)).arena.forest b) with
    | [] => []
    | t :: _ => t.kids
  cases e : (parse (opaqueWrapper s)).body with
  | none => rfl
  | some b =>
    simp only [Arena.forest]
    cases e2 : (parse (opaqueWrapper s)).arena.children b with
    | nil => rfl
    | cons d ds =>
      simp only [List.head?_cons, List.map_cons]
      rw [hS.wf.tree_eq]
      cases hk : ((parse (opaqueWrapper s)).arena.data d).kind with
      | element tag attrs => rfl
      | text t =>
        rw [hS.leaf d (.inl ⟨t, hk⟩)]; rfl
      | comment t =>
        rw [hS.leaf d (.inr ⟨t, hk⟩)]; rfl
      | document =>
        exfalso
        refine hS.nodoc d b ?_ hk
        rw [← hS.wf.mem_iff, e2]; simp

theorem madeL_eq {d : Dialect} (h : ∀ a, d.create a = a) : ∀ cs : List InsertContent,
    d.madeL cs = InsertContent.htmlL cs := by
  intro cs
  have key : ∀ c : InsertContent, d.made c = c.html := by
    intro c
    exact InsertContent.rec (motive_1 := fun c => d.made c = c.html)
      (motive_2 := fun cs => d.madeL cs = InsertContent.htmlL cs)
      (fun tag attrs cs ih => by simp only [Dialect.made, InsertContent.html, ih, h])
      (fun s => rfl) (fun s => rfl) rfl
      (fun c cs h1 h2 => by simp only [Dialect.madeL, InsertContent.htmlL, h1, h2]) c
  induction cs with
  | nil => rfl
  | cons c cs ih => simp only [Dialect.madeL, InsertContent.htmlL, key c, ih]

/-- Setting attributes, as the library does it. -/
theorem setAttrList_eq (name : QualName) (value : Str) (a : Attrs) :
    Document.setAttrList name value a = a.put (fun k => decide (k = name)) name value := by
  unfold Attrs.put
  induction a with
  | nil => rfl
  | cons kv rest ih =>
    obtain ⟨k, v⟩ := kv
    simp only [Document.setAttrList, List.findIdx?_cons]
    by_cases e : k = name
    · simp [e]
    · simp only [e, if_false, decide_false, Bool.false_eq_true]
      rw [ih]
      cases List.findIdx? (fun kv : QualName × Str => decide (kv.1 = name)) rest <;> simp

namespace Rep

variable {A0 A A' : Arena NodeData} {b : Nat} {F : Nat → Prop} {slots slots' : Slots}
  {σ σ' : Store}

/-- The node in hand is not above a node of the store. -/
theorem hand_not_anc (hF : Fence A0 b F) {x : Nat} {t u : Html}
    (h : Rep A0 b F A slots σ (some (x, t))) {q : Path} {p : Nat} (hf : σ.find q = some u)
    (hn : navigate A slots q = .ok p) : ¬ A.Anc x p := by
  obtain ⟨s, q', t', r, p', e2, hs, hrs, ht, hg, hl, hnp, htp, ha, hlt⟩ := h.find hF hf
  rw [hn] at hnp; cases hnp
  intro hx
  have : x = r := h.grove.unique hF (.inr ⟨t, rfl⟩) (live_slot hs hrs) hx ha
  subst this
  exact (h.held x t rfl).2 s (by rw [hs]; simp) hrs

/-- `insert_at` puts the node in hand at its place. -/
theorem native_insert (hF : Fence A0 b F) {x : Nat} {t : Html}
    (h : Rep A0 b F A slots σ (some (x, t))) {at_ : Path} {slot : Option Nat}
    (hi : σ.insert true at_ t slot = some σ') :
    ∃ A' slots', insertAt A slots at_ x slot = .ok (A', slots') ∧ Rep A0 b F A' slots' σ' none := by
  have hA := h.grove.wf
  rcases snoc_cases at_ with rfl | ⟨q, pos, rfl⟩
  · simp [Store.insert] at hi
  obtain ⟨hk0, tag, attrs, cs, hf, hi⟩ := insert_eq hi
  obtain ⟨s, q', t', r, p, e2, hs, hrs, ht, hg, hl, hn, htp, ha, hlt⟩ := h.find hF hf
  have hxl : Live slots σ (some (x, t)) x := .inr ⟨t, rfl⟩
  have hxlt := h.grove.lt x hxl
  have hxp := h.grove.free x hxl (h.hand_ne rfl)
  have hanc := h.hand_not_anc hF hf hn
  have hcs : cs = (A.children p).map A.tree := by
    have := hA.tree_eq p
    rw [htp] at this
    cases hk : (A.data p).kind with
    | element tag' attrs' => rw [hk] at this; simp only [Html.ofKind, Html.element.injEq] at this; exact this.2.2
    | _ => rw [hk] at this; simp [Html.ofKind] at this
  rcases hi with ⟨k, occ, rfl, hocc, rfl⟩ | ⟨_, _, hb, _⟩ | ⟨⟨occ, hocc⟩, rfl, _, rfl⟩ | ⟨hocc, rfl⟩
  · rw [hcs, List.getElem?_map] at hocc
    cases eo : (A.children p)[pos]? with
    | none => rw [eo] at hocc; cases hocc
    | some o =>
      obtain ⟨A', e, hd⟩ := insertAt_put (k := k) hA hn eo hxlt hxp hanc
      obtain ⟨_, to, hto, hrep⟩ := h.placed_set hF hf hn hd
      refine ⟨A', _, e, ?_⟩
      rw [hcs, List.getElem?_map] at hto
      rw [hocc] at hto
      cases hto
      exact hrep.store fun e => hk0 (by rw [e])
  · cases hb
  · rw [hcs, List.getElem?_map] at hocc
    cases eo : (A.children p)[pos]? with
    | none => rw [eo] at hocc; cases hocc
    | some o =>
      obtain ⟨hlt', _⟩ := List.getElem?_eq_some_iff.1 eo
      have hz : pos - (A.children p).length = 0 := by omega
      obtain ⟨A', e, w, n, -, c, d⟩ := hA.insert_at eo hxlt hxp hanc
      refine ⟨A', slots, ?_, ?_⟩
      · simp only [insertAt, slotParent_append hn, bind, Except.bind, displace, insertAtPosition, hz,
          fillGaps, eo, e]
      · have := h.placed_new (pos := pos) hF hf hn w (by rw [n, hz]; rfl)
          (fun m hm => by rw [c, if_neg hm]) (by rw [c, if_pos rfl, hz]; simp)
          (fun m => by rw [d, if_neg (by omega)])
        have hz2 : pos - cs.length = 0 := by rw [hcs, List.length_map]; exact hz
        rw [hz2, List.replicate_zero, List.append_nil] at this
        exact this
  · have hge : (A.children p).length ≤ pos := by
      rw [List.getElem?_eq_none_iff, hcs, List.length_map] at hocc; exact hocc
    obtain ⟨A', e, w, n, -, c, d⟩ := hA.fill_append hlt hxlt hxp hanc Document.emptyText
      (pos - (A.children p).length)
    obtain ⟨w1, n1, p1, c1, d1⟩ := hA.fill hlt Document.emptyText (pos - (A.children p).length)
    have hnone : ((Arena.fill Document.emptyText A p (pos - (A.children p).length)).children p)[pos]?
        = none := by
      rw [c1, if_pos rfl, List.getElem?_eq_none_iff]; simp; omega
    have hdis : displace A slots p pos slot = (A, slots) := by
      unfold displace
      cases slot with
      | none => rfl
      | some k => simp only [List.getElem?_eq_none hge]
    refine ⟨A', slots, ?_, ?_⟩
    · simp only [insertAt, slotParent_append hn, bind, Except.bind, hdis, insertAtPosition,
        docFillGaps_eq, hnone, e]
    · have hge2 : cs.length ≤ pos := by rw [hcs, List.length_map]; exact hge
      have := h.placed_new (pos := pos) hF hf hn w n
        (fun m hm => by rw [c, if_neg hm])
        (by rw [c, if_pos rfl, List.take_of_length_le hge, List.drop_eq_nil_of_le hge])
        (fun m => by rw [d, n])
      rw [List.take_of_length_le hge2, List.drop_eq_nil_of_le hge2] at this
      exact this

/-- A change of the data of the node at a path. -/
theorem setData (hF : Fence A0 b F) (h : Rep A0 b F A slots σ none) {path : Path} {u u' : Html} {n : Nat}
    (hf : σ.find path = some u) (hn : navigate A slots path = .ok n) (d : NodeData)
    (hu : Html.ofKind d.kind (A.forest n) = u') :
    Rep A0 b F (A.setData n d) slots (σ.write path u') none := by
  have hA := h.grove.wf
  have hc : Changed A (A.setData n d) n := ⟨hA.setData n d, Nat.le_refl _, fun _ _ _ => rfl,
    fun m q h1 h2 => (by
      rw [show (A.setData n d).children q = A.children q from rfl, hA.children_ge h1] at h2; cases h2),
    fun m _ hm => by simp only [Arena.setData]; exact Arena.upd_ne _ _ hm⟩
  refine h.write hF hf hn hc ?_ fun m hm => .inl hm
  rw [(hA.setData n d).tree_eq, ← hu]
  have e1 : ((A.setData n d).data n) = d := by simp [Arena.setData, Arena.upd_apply]
  rw [e1]
  cases hk : d.kind with
  | element tag attrs =>
    simp only [Html.ofKind]
    congr 1
    apply List.map_congr_left
    intro m hm
    exact tree_child hA hc hm
  | _ => rfl

theorem kind_of_tree (hA : A.WF) {n : Nat} {u : Html} (h : A.tree n = u) :
    Html.ofKind (A.data n).kind (A.forest n) = u := by rw [← hA.tree_eq]; exact h

/-- Taking the tree at a path out of the store. -/
theorem native_take (hF : Fence A0 b F) (h : Rep A0 b F A slots σ none) {path : Path} {t : Html}
    (ht : σ.take path = some (t, σ')) :
    (1 < path.length ∧ ∃ n A1, navigate A slots path = .ok n ∧ replaceByEmpty A n = .ok A1 ∧
      Rep A0 b F A1 slots σ' (some (n, t))) ∨
    (∃ s x, path = [s] ∧ s ≠ 0 ∧ navigate A slots path = .ok x ∧ slots s = some x ∧ x < A.next ∧
      A.parent x = none ∧ Rep A0 b F A slots σ' (some (x, t))) := by
  have hA := h.grove.wf
  unfold Store.take at ht
  cases ef : σ.find path with
  | none => rw [ef] at ht; cases ht
  | some u =>
    rw [ef] at ht
    obtain ⟨s, q', t', r, n, e2, hs, hrs, htr, hg, hl, hn, htn, ha, hlt⟩ := h.find hF ef
    subst e2
    cases q' with
    | nil =>
      simp only at ht
      split at ht
      · cases ht
      · next h0 =>
        cases ht
        cases hl
        cases hg
        have hrep := h.takeSlot h0 hs hrs
        exact .inr ⟨s, r, rfl, h0, hn, hrs, hlt,
          hrep.grove.free r (.inr ⟨t, rfl⟩) (hrep.hand_ne rfl), hrep⟩
    | cons i is =>
      simp only [Option.some.injEq, Prod.mk.injEq] at ht
      obtain ⟨rfl, rfl⟩ := ht
      refine .inl ⟨by simp, n, ?_⟩
      obtain ⟨l, a, e⟩ : ∃ l a, i :: is = l ++ [a] := by
        rcases snoc_cases (i :: is) with e | e
        · cases e
        · exact e
      rw [e] at ef hn hl ⊢
      obtain ⟨p, _, hp2⟩ := navLoop_concat.1 hl
      have hpar := (hA.mem_iff _ _).1 (List.mem_of_getElem? hp2)
      obtain ⟨A1, e1, hr⟩ := replaceByEmpty_repl hA hpar
      exact ⟨A1, hn, e1, h.replaced hF (q := s :: l) (by simp) ef hn hpar hr⟩

/-- **One patch** of the library. -/
theorem native_step (hF : Fence A0 b F) {parse : Str → Document} (hp : ∀ s, (parse s).arena.Sound)
    (h : Rep A0 b F A slots σ none) {P : Patch}
    (ha : (Dialect.library (parsedContent parse)).apply σ P = some σ') :
    ∃ A' slots', applyPatch parse A slots P = .ok (A', slots') ∧ Rep A0 b F A' slots' σ' none := by
  have hA := h.grove.wf
  have new : ∀ {d : NodeData} {t : Html}, Html.ofKind d.kind [] = t →
      Rep A0 b F (A.newNode d).1 slots σ (some (A.next, t)) := by
    intro d t ht
    have hg := Grows.newNode hA d
    refine h.grabNew hF hg (Nat.le_refl _) (by simp) ?_ ?_
    · rw [hA.newNode_parent]; exact hA.parent_ge (Nat.le_refl _)
    · rw [hg.wf.tree_eq, Arena.newNode_data, if_pos rfl, Arena.forest, hA.newNode_children,
        hA.children_ge (Nat.le_refl _)]
      exact ht
  cases P with
  | insertText at_ s slot =>
    simp only [Dialect.apply, Dialect.library] at ha
    exact (new (d := ⟨.text s, .html⟩) rfl).native_insert hF ha
  | insertComment at_ s slot =>
    simp only [Dialect.apply, Dialect.library] at ha
    exact (new (d := ⟨.comment s, .html⟩) rfl).native_insert hF ha
  | insertElement at_ tag attrs cs slot =>
    simp only [Dialect.apply] at ha
    rw [madeL_eq (fun _ => rfl)] at ha
    obtain ⟨A1, e, hcr, hfor, _⟩ := hA.createdContent tag attrs cs
    have hg : Grows A A1 := ⟨hcr.wf, Nat.le_of_lt hcr.next_lt, hcr.parent, hcr.children, hcr.data⟩
    have hrep : Rep A0 b F A1 slots σ (some (A.next, .element tag attrs (InsertContent.htmlL cs))) := by
      refine h.grabNew hF hg (Nat.le_refl _) hcr.next_lt hcr.self ?_
      rw [hcr.wf.tree_eq, hcr.node, hfor]; rfl
    obtain ⟨A', slots', e2, hr⟩ := hrep.native_insert hF ha
    refine ⟨A', slots', ?_, hr⟩
    simp only [applyPatch, Arena.newNode_snd, e, bind, Except.bind, e2]
  | remove path =>
    simp only [Dialect.apply, Option.map_eq_some_iff, Prod.exists, exists_eq_right] at ha
    obtain ⟨t, ha⟩ := ha
    rcases h.native_take hF ha with ⟨hl, n, A1, hn, e, hr⟩ | ⟨s, x, rfl, h0, hn, hs, hlt, hpar, hr⟩
    · exact ⟨A1, slots, by simp only [applyPatch, hn, bind, Except.bind, e], hr.drop⟩
    · refine ⟨(A.newNode Document.emptyText).1, slots, ?_, hr.drop.grow hF (Grows.newNode hA _)⟩
      simp only [applyPatch, hn, bind, Except.bind, replaceByEmpty_free hA hlt hpar]
  | move from_ to slot =>
    simp only [Dialect.apply] at ha
    cases et : σ.take from_ with
    | none => rw [et] at ha; cases ha
    | some r =>
      obtain ⟨t, σ1⟩ := r
      rw [et] at ha
      simp only [Dialect.library] at ha
      rcases h.native_take hF et with ⟨hl, n, A1, hn, e, hr⟩ | ⟨s, x, rfl, h0, hn, hs, hlt, hpar, hr⟩
      · obtain ⟨A', slots', e2, hr2⟩ := hr.native_insert hF ha
        refine ⟨A', slots', ?_, hr2⟩
        simp only [applyPatch, hn, bind, Except.bind, if_pos hl, e, e2]
      · obtain ⟨A', slots', e2, hr2⟩ := hr.native_insert hF ha
        refine ⟨A', slots', ?_, hr2⟩
        simp only [applyPatch, hn, bind, Except.bind, Arena.detach_of_parent_none hpar, e2]
        rw [if_neg (by simp)]
  | setText path s =>
    simp only [Dialect.apply] at ha
    cases ef : σ.find path with
    | none => rw [ef] at ha; cases ha
    | some u =>
      rw [ef] at ha
      obtain ⟨_, _, _, _, n, _, _, _, _, _, _, hn, htn, _, hlt⟩ := h.find hF ef
      have hk := kind_of_tree hA htn
      cases ed : A.data n with
      | mk k ns =>
        rw [ed] at hk
        cases k with
        | text s0 =>
          simp only [Html.ofKind] at hk
          subst hk
          simp only [Option.some.injEq] at ha
          subst ha
          refine ⟨A.setData n ⟨.text s, ns⟩, slots, ?_,
            h.setData hF ef hn ⟨.text s, ns⟩ rfl⟩
          simp only [applyPatch, hn, bind, Except.bind, ed]
        | comment s0 =>
          simp only [Html.ofKind] at hk
          subst hk
          simp only [Option.some.injEq] at ha
          subst ha
          refine ⟨A.setData n ⟨.comment s, ns⟩, slots, ?_,
            h.setData hF ef hn ⟨.comment s, ns⟩ rfl⟩
          simp only [applyPatch, hn, bind, Except.bind, ed]
        | element tag attrs => simp only [Html.ofKind] at hk; subst hk; cases ha
        | document  => simp only [Html.ofKind] at hk; subst hk; cases ha
  | setAttribute path name v =>
    simp only [Dialect.apply] at ha
    cases ef : σ.find path with
    | none => rw [ef] at ha; cases ha
    | some u =>
      rw [ef] at ha
      obtain ⟨_, _, _, _, n, _, _, _, _, _, _, hn, htn, _, hlt⟩ := h.find hF ef
      have hk := kind_of_tree hA htn
      cases ed : A.data n with
      | mk k ns =>
        rw [ed] at hk
        cases k with
        | text s0 => simp only [Html.ofKind] at hk; subst hk; cases ha
        | comment s0 => simp only [Html.ofKind] at hk; subst hk; cases ha
        | element tag attrs =>
          simp only [Html.ofKind] at hk
          subst hk
          simp only [Option.some.injEq] at ha
          subst ha
          refine ⟨A.setData n ⟨.element tag (Document.setAttrList name v attrs), ns⟩, slots, ?_,
            h.setData hF ef hn ⟨.element tag (Document.setAttrList name v attrs), ns⟩ (by simp only [Html.ofKind, setAttrList_eq]; rfl)⟩
          simp only [applyPatch, hn, bind, Except.bind, ed]
        | document  => simp only [Html.ofKind] at hk; subst hk; cases ha
  | removeAttribute path name =>
    simp only [Dialect.apply] at ha
    cases ef : σ.find path with
    | none => rw [ef] at ha; cases ha
    | some u =>
      rw [ef] at ha
      obtain ⟨_, _, _, _, n, _, _, _, _, _, _, hn, htn, _, hlt⟩ := h.find hF ef
      have hk := kind_of_tree hA htn
      cases ed : A.data n with
      | mk k ns =>
        rw [ed] at hk
        cases k with
        | text s0 => simp only [Html.ofKind] at hk; subst hk; cases ha
        | comment s0 => simp only [Html.ofKind] at hk; subst hk; cases ha
        | element tag attrs =>
          simp only [Html.ofKind] at hk
          subst hk
          simp only [Option.some.injEq] at ha
          subst ha
          refine ⟨A.setData n ⟨.element tag (Document.removeAttrList name attrs), ns⟩, slots, ?_,
            h.setData hF ef hn ⟨.element tag (Document.removeAttrList name attrs), ns⟩ rfl⟩
          simp only [applyPatch, hn, bind, Except.bind, ed]
        | document  => simp only [Html.ofKind] at hk; subst hk; cases ha
  | updateProps path changes =>
    simp only [Dialect.apply] at ha
    have hup : ∀ s, updText s changes = (textChange changes).getD s := by
      intro s
      unfold updText textChange
      cases changes.find? (fun c => decide (c.name = .text)) with
      | none => rfl
      | some c => obtain ⟨nm, v⟩ := c; cases v <;> rfl
    cases ef : σ.find path with
    | none => rw [ef] at ha; cases ha
    | some u =>
      rw [ef] at ha
      obtain ⟨_, _, _, _, n, _, _, _, _, _, _, hn, htn, _, hlt⟩ := h.find hF ef
      have hk := kind_of_tree hA htn
      cases ed : A.data n with
      | mk k ns =>
        rw [ed] at hk
        cases k with
        | text s0 =>
          simp only [Html.ofKind] at hk
          subst hk
          simp only [Option.some.injEq] at ha
          subst ha
          refine ⟨A.setData n ⟨.text (updText s0 changes), ns⟩, slots, ?_,
            h.setData hF ef hn ⟨.text (updText s0 changes), ns⟩ (by simp only [Html.ofKind, hup])⟩
          simp only [applyPatch, hn, bind, Except.bind, ed]
        | comment s0 =>
          simp only [Html.ofKind] at hk
          subst hk
          simp only [Option.some.injEq] at ha
          subst ha
          refine ⟨A.setData n ⟨.comment (updText s0 changes), ns⟩, slots, ?_,
            h.setData hF ef hn ⟨.comment (updText s0 changes), ns⟩ (by simp only [Html.ofKind, hup])⟩
          simp only [applyPatch, hn, bind, Except.bind, ed]
        | element tag attrs =>
          simp only [Html.ofKind] at hk
          subst hk
          simp only [Option.some.injEq] at ha
          subst ha
          refine ⟨A.setData n ⟨.element tag (rebuildAttrs attrs changes), ns⟩, slots, ?_,
            h.setData hF ef hn ⟨.element tag (rebuildAttrs attrs changes), ns⟩ rfl⟩
          simp only [applyPatch, hn, bind, Except.bind, ed]
        | document  => simp only [Html.ofKind] at hk; subst hk; cases ha
  | opaqueChanged path s =>
    simp only [Dialect.apply] at ha
    cases ef : σ.find path with
    | none => rw [ef] at ha; cases ha
    | some u =>
      rw [ef] at ha
      obtain ⟨_, _, _, _, n, _, _, _, _, _, _, hn, htn, _, hlt⟩ := h.find hF ef
      cases u with
      | element tag attrs cs =>
        simp only [Option.some.injEq] at ha
        subst ha
        have hW := (hp (opaqueWrapper s)).wf
        have w1 := detachAll_wf hA (A.children n)
        have n1 := detachAll_next A (A.children n)
        have d1 := detachAll_data A (A.children n)
        have c1 := detachAll_kids hA n
        obtain ⟨A', ids, e, hg, hk, ht, hge⟩ := appendAll_builds
          ((wrapperChildren (parse (opaqueWrapper s))).map
            (cloneSubtree (parse (opaqueWrapper s)).arena))
          ((wrapperChildren (parse (opaqueWrapper s))).map (parse (opaqueWrapper s)).arena.tree)
          (detachAll A (A.children n)) n w1 (by rw [n1]; exact hlt) (by simp) (by
            intro i r t hr ht
            rw [List.getElem?_map] at hr ht
            cases ec : (wrapperChildren (parse (opaqueWrapper s)))[i]? with
            | none => rw [ec] at hr; cases hr
            | some c =>
              rw [ec] at hr ht
              cases hr; cases ht
              exact cloneSubtree_builds hW c)
        rw [c1, if_pos rfl, List.nil_append] at hk
        have hle := hg.le
        rw [n1] at hle hge
        have hc : Changed A A' n := by
          refine ⟨hg.wf, hle, fun m h1 hm => by rw [hg.children m (by omega) hm, c1, if_neg hm], ?_,
            fun m hm _ => by rw [hg.data m (by omega), d1]⟩
          intro m q h1 h2
          apply Classical.byContradiction
          intro h3
          rw [hg.wf.mem_iff, hg.parent m (by omega)] at h2
          have := (w1.lt_of_parent _ _ h2).2
          omega
        refine ⟨A', slots, ?_, h.write hF ef hn hc ?_ ?_⟩
        · simp only [applyPatch, hn, bind, Except.bind]
          rw [List.foldlM_map] at e
          simp only [bind, Except.bind] at e
          rw [e]
        · obtain ⟨k1, _⟩ := tree_kids hA hc htn (by rw [hg.data n (by omega), d1])
          rw [k1, hk, ht, wrapperChildren_tree hp]
          rfl
        · intro m hm
          rw [hk] at hm
          exact .inr (.inr (hge m hm))
      | _ => cases ha

end Rep
end Hotmeal
