import Verif.Lemmas.RewriteNative

set_option autoImplicit false
set_option linter.unusedSectionVars false

/-!
# The browser client rewrites trees
-/

namespace Hotmeal

/-! ### Attributes -/

theorem written_eq (q : QualName) : q.written = serName q := by
  unfold QualName.written serName
  cases q.prefix_ with
  | none => rfl
  | some p => simp

theorem shown_eq (q : QualName) : q.shown = Wasm.domName q := by
  unfold QualName.shown Wasm.domName
  cases q.prefix_ with
  | none => rfl
  | some p => cases p <;> simp

theorem Wasm.setAttribute_eq (name value : Str) (a : Attrs) :
    Wasm.setAttribute name value a = a.putWritten name value := by
  unfold Attrs.putWritten Attrs.put
  induction a with
  | nil => rfl
  | cons kv rest ih =>
    obtain ⟨k, v⟩ := kv
    simp only [Wasm.setAttribute, List.findIdx?_cons, written_eq]
    by_cases e : serName k = name
    · simp [e]
    · simp only [e, if_false, decide_false, Bool.false_eq_true]
      rw [ih]
      simp only [written_eq]
      cases List.findIdx? (fun kv : QualName × Str => decide (serName kv.1 = name)) rest <;> simp

theorem Wasm.setAttrs_eq (a : Attrs) : Wasm.setAttrs a = Dialect.page.create a := by
  unfold Wasm.setAttrs
  simp only [Dialect.page, Wasm.setAttribute_eq, shown_eq]

theorem Wasm.removeAttribute_eq (name : QualName) (a : Attrs) :
    Wasm.removeAttribute (Wasm.domName name) a = Dialect.page.removeAttr name a := by
  unfold Wasm.removeAttribute
  simp only [Dialect.page, written_eq, shown_eq]
  rw [List.eraseP_eq_eraseIdx]
  cases List.findIdx? (fun kv : QualName × Str => decide (serName kv.1 = Wasm.domName name)) a <;> rfl

/-- Erase the first attribute of each of the names. -/
def eraseFirst (l : List Str) : Attrs → Attrs
  | [] => []
  | (k, v) :: rest =>
    if serName k ∈ l then eraseFirst (l.erase (serName k)) rest else (k, v) :: eraseFirst l rest

theorem eraseFirst_nil (a : Attrs) : eraseFirst [] a = a := by
  induction a with
  | nil => rfl
  | cons kv rest ih => simp [eraseFirst, ih]

theorem eraseFirst_cons {n : Str} {l : List Str} (hn : n ∉ l) (a : Attrs) :
    eraseFirst l (Wasm.removeAttribute n a) = eraseFirst (n :: l) a := by
  induction a generalizing l with
  | nil => rfl
  | cons kv rest ih =>
    obtain ⟨k, v⟩ := kv
    simp only [Wasm.removeAttribute, List.eraseP_cons] at ih ⊢
    by_cases e : serName k = n
    · simp [e, eraseFirst]
    · simp only [e, decide_false, cond_false, eraseFirst, List.mem_cons, false_or]
      by_cases h : serName k ∈ l
      · rw [if_pos h, if_pos h, ih (fun h' => hn (List.mem_of_mem_erase h')),
          List.erase_cons_tail (by simpa using fun h => e h.symm)]
      · rw [if_neg h, if_neg h, ih hn]

theorem foldl_removeAttribute {l : List Str} (hl : l.Nodup) (a : Attrs) :
    l.foldl (fun acc n => Wasm.removeAttribute n acc) a = eraseFirst l a := by
  induction l generalizing a with
  | nil => rw [eraseFirst_nil]; rfl
  | cons n l ih =>
    rw [List.nodup_cons] at hl
    rw [List.foldl_cons, ih hl.2, eraseFirst_cons hl.1]

theorem repeated_eq {seen l : List Str} {a : Attrs} (hl : l.Nodup)
    (h : ∀ kv ∈ a, serName kv.1 ∈ l ↔ serName kv.1 ∉ seen) : a.repeated seen = eraseFirst l a := by
  induction a generalizing seen l with
  | nil => rfl
  | cons kv rest ih =>
    obtain ⟨k, v⟩ := kv
    have hk := h (k, v) (by simp)
    simp only at hk
    simp only [Attrs.repeated, eraseFirst, written_eq]
    by_cases e : serName k ∈ seen
    · rw [if_pos e, if_neg (fun h' => hk.1 h' e), ih hl fun kv hkv => h kv (by simp [hkv])]
    · rw [if_neg e, if_pos (hk.2 e)]
      refine ih (hl.erase _) fun kv hkv => ?_
      rw [hl.mem_erase_iff, h kv (by simp [hkv])]
      simp

theorem nodup_eraseDups {α : Type} [BEq α] [LawfulBEq α] (l : List α) : l.eraseDups.Nodup := by
  generalize hn : l.length = n
  induction n using Nat.strongRecOn generalizing l with
  | ind n ih =>
    cases l with
    | nil => simp
    | cons a l =>
      rw [List.eraseDups_cons, List.nodup_cons]
      refine ⟨by simp, ih _ ?_ _ rfl⟩
      have := List.length_filter_le (fun b => !b == a) l
      simp only [List.length_cons] at hn
      omega

theorem Wasm.clearAttrs_repeated (a : Attrs) : Wasm.clearAttrs a = a.repeated [] := by
  unfold Wasm.clearAttrs
  rw [foldl_removeAttribute (nodup_eraseDups _)]
  refine (repeated_eq (nodup_eraseDups _) fun kv hkv => ?_).symm
  simp only [List.mem_eraseDups, List.not_mem_nil, not_false_eq_true, iff_true]
  exact List.mem_map_of_mem (f := fun kv : QualName × Str => serName kv.1) hkv

theorem Wasm.updateAttrs_eq (changes : List PropChange) (a : Attrs) :
    Wasm.updateAttrs a changes = Dialect.page.update changes a := by
  unfold Wasm.updateAttrs Wasm.existing
  simp only [Dialect.page, Wasm.setAttribute_eq, Wasm.clearAttrs_repeated, written_eq]
  congr 1

/-! ### Created content -/

theorem Wasm.appendChild_of {A A' : Arena NodeData} {p c : Nat} (h : A.append p c = .ok A') :
    Wasm.appendChild A p c = .ok A' := by
  unfold Arena.append at h
  unfold Wasm.appendChild
  split at h
  · cases h
  · next hn => rw [if_neg hn]; exact h

theorem Wasm.appendContents_of : ∀ (cs : List InsertContent) {A A' : Arena NodeData} {n : Nat},
    (cs.map fun c A => Wasm.createInsertContent A c).foldlM (fun A r => do
        let (A, c) ← r A
        A.append n c) A = .ok A' → Wasm.appendContents A n cs = .ok A' := by
  intro cs
  induction cs with
  | nil => intro A A' n h; rw [← h]; rfl
  | cons c cs ih =>
    intro A A' n h
    rw [List.map_cons, List.foldlM_cons] at h
    simp only [Wasm.appendContents, bind, Except.bind] at h ⊢
    cases e : Wasm.createInsertContent A c with
    | error => rw [e] at h; cases h
    | ok r =>
      obtain ⟨A1, m⟩ := r
      rw [e] at h
      simp only at h ⊢
      cases e2 : A1.append n m with
      | error => rw [e2] at h; cases h
      | ok A2 =>
        rw [e2] at h
        rw [Wasm.appendChild_of e2]
        exact ih h

theorem madeL_map (d : Dialect) (cs : List InsertContent) : d.madeL cs = cs.map d.made := by
  induction cs with
  | nil => rfl
  | cons c cs ih => simp [Dialect.madeL, ih]

/-- The browser client creates the given content. -/
theorem Wasm.createInsertContent_builds : ∀ c : InsertContent,
    Builds (fun A => Wasm.createInsertContent A c) (Dialect.page.made c) := by
  intro c
  refine InsertContent.rec
    (motive_1 := fun c => Builds (fun A => Wasm.createInsertContent A c) (Dialect.page.made c))
    (motive_2 := fun cs => ∀ c ∈ cs,
      Builds (fun A => Wasm.createInsertContent A c) (Dialect.page.made c)) ?_ ?_ ?_ ?_ ?_ c
  · intro tag attrs cs ih A h
    have hn := Grows.newNode h ⟨.element tag (Wasm.setAttrs attrs), .html⟩
    obtain ⟨A', ids, e, hA', hk, ht, _⟩ := appendAll_builds
      (cs.map fun c A => Wasm.createInsertContent A c) (cs.map Dialect.page.made)
      (A.newNode ⟨.element tag (Wasm.setAttrs attrs), .html⟩).1 A.next hn.wf (by simp) (by simp) (by
        intro i r t hr ht
        rw [List.getElem?_map] at hr ht
        cases ec : cs[i]? with
        | none => rw [ec] at hr; cases hr
        | some c =>
          rw [ec] at hr ht
          cases hr; cases ht
          exact ih c (List.mem_of_getElem? ec))
    have hle := hA'.le
    simp only [Arena.newNode_next] at hle
    have hd : A'.data A.next = ⟨.element tag (Wasm.setAttrs attrs), .html⟩ := by
      rw [hA'.data _ (by simp), Arena.newNode_data, if_pos rfl]
    refine ⟨A', A.next, ?_, ?_, Nat.le_refl _, by omega, ?_, ?_⟩
    · have := Wasm.appendContents_of cs e
      simp only [Wasm.createInsertContent, Arena.newNode_snd, bind, Except.bind, this]
    · refine ⟨hA'.wf, by omega, ?_, ?_, ?_⟩
      · intro i hi
        rw [hA'.parent i (by simp; omega)]; exact hn.parent i hi
      · intro i hi
        rw [hA'.children i (by simp; omega) (by omega)]; exact hn.children i hi
      · intro i hi
        rw [hA'.data i (by simp; omega)]; exact hn.data i hi
    · rw [hA'.parent _ (by simp), h.newNode_parent]
      exact h.parent_ge (Nat.le_refl _)
    · rw [hA'.wf.tree_eq, hd, Arena.forest, hk, h.newNode_children, h.children_ge (Nat.le_refl _),
        List.nil_append, ht, Wasm.setAttrs_eq]
      simp only [Html.ofKind, Dialect.made, madeL_map]
  · intro s A h
    have hn := Grows.newNode h ⟨.text s, .html⟩
    refine ⟨(A.newNode ⟨.text s, .html⟩).1, A.next, rfl, hn, Nat.le_refl _, by simp, ?_, ?_⟩
    · rw [h.newNode_parent]; exact h.parent_ge (Nat.le_refl _)
    · rw [hn.wf.tree_eq, Arena.newNode_data, if_pos rfl]; rfl
  · intro s A h
    have hn := Grows.newNode h ⟨.comment s, .html⟩
    refine ⟨(A.newNode ⟨.comment s, .html⟩).1, A.next, rfl, hn, Nat.le_refl _, by simp, ?_, ?_⟩
    · rw [h.newNode_parent]; exact h.parent_ge (Nat.le_refl _)
    · rw [hn.wf.tree_eq, Arena.newNode_data, if_pos rfl]; rfl
  · intro c hc; cases hc
  · intro c cs h1 h2 c' hc'
    rcases List.mem_cons.1 hc' with rfl | h
    · exact h1
    · exact h2 c' h

/-! ### One patch -/

theorem Wasm.view_upd {root k : Nat} (hk : k ≠ 0) (slots : Slots) (v : Option Nat) :
    Wasm.view root (Arena.upd slots k v) = Arena.upd (Wasm.view root slots) k v := by
  funext i
  simp only [Wasm.view, Arena.upd_apply]
  by_cases h0 : i = 0
  · rw [if_pos h0, if_neg (by omega), if_pos h0]
  · rw [if_neg h0, if_neg h0]

namespace Rep

variable {A0 A A' : Arena NodeData} {b : Nat} {F : Nat → Prop} {slots slots' : Slots}
  {σ σ' : Store}

theorem isElement_of_tree (hA : A.WF) {p : Nat} {tag : Str} {attrs : Attrs} {cs : List Html}
    (h : A.tree p = .element tag attrs cs) : (A.data p).kind.IsElement ∧ cs = (A.children p).map A.tree := by
  rw [hA.tree_eq] at h
  cases hk : (A.data p).kind with
  | element tag' attrs' =>
    rw [hk] at h
    simp only [Html.ofKind, Html.element.injEq] at h
    exact ⟨⟨tag', attrs', rfl⟩, h.2.2.symm⟩
  | _ => rw [hk] at h; simp [Html.ofKind] at h

/-- The browser's parent lookup, and what `insert_at_position` then does with the node in hand. -/
theorem browser_insert (hF : Fence A0 b F) {x : Nat} {t : Html}
    (h : Rep A0 b F A (Wasm.view b slots) σ (some (x, t))) {at_ : Path} {slot : Option Nat}
    (hi : σ.insert false at_ t slot = some σ') :
    ∃ p pos A' slots', Wasm.insertParent b A slots at_ = .ok (p, pos) ∧
      Wasm.insertAtPosition A slots p x pos slot = .ok (A', slots') ∧
      Rep A0 b F A' (Wasm.view b slots') σ' none := by
  have hA := h.grove.wf
  rcases snoc_cases at_ with rfl | ⟨q, pos, rfl⟩
  · simp [Store.insert] at hi
  obtain ⟨hk0, tag, attrs, cs, hf, hi⟩ := insert_eq hi
  obtain ⟨s, q', t', r, p, e2, hs, hrs, ht, hg, hl, hn, htp, ha, hlt⟩ := h.find hF hf
  have hxl : Live (Wasm.view b slots) σ (some (x, t)) x := .inr ⟨t, rfl⟩
  have hxlt := h.grove.lt x hxl
  have hxp := h.grove.free x hxl (h.hand_ne rfl)
  have hanc := h.hand_not_anc hF hf hn
  obtain ⟨hel, hcs⟩ := isElement_of_tree hA htp
  have hpar : Wasm.insertParent b A slots (q ++ [pos]) = .ok (p, pos) := Wasm.insertParent_eq hn hel
  rcases hi with ⟨k, occ, rfl, hocc, rfl⟩ | ⟨⟨occ, hocc⟩, rfl, _, rfl⟩ | ⟨_, _, hb, _⟩ | ⟨hocc, rfl⟩
  · rw [hcs, List.getElem?_map] at hocc
    cases eo : (A.children p)[pos]? with
    | none => rw [eo] at hocc; cases hocc
    | some o =>
      obtain ⟨A', e, hd⟩ := Wasm.replaceChild_put hA eo hxlt hxp hanc
      obtain ⟨_, to, hto, hrep⟩ := h.placed_set hF hf hn hd
      have hk : k ≠ 0 := fun e => hk0 (by rw [e])
      refine ⟨p, pos, A', Arena.upd slots k (some o), hpar, ?_, ?_⟩
      · simp only [Wasm.insertAtPosition, eo, e, bind, Except.bind]
      · rw [hcs, List.getElem?_map] at hto
        rw [hocc] at hto
        cases hto
        rw [Wasm.view_upd hk]
        exact hrep.store hk
  · rw [hcs, List.getElem?_map] at hocc
    cases eo : (A.children p)[pos]? with
    | none => rw [eo] at hocc; cases hocc
    | some o =>
      obtain ⟨A', e, hd⟩ := Wasm.replaceChild_put hA eo hxlt hxp hanc
      obtain ⟨hrep, _⟩ := h.placed_set hF hf hn hd
      refine ⟨p, pos, A', slots, hpar, ?_, hrep⟩
      simp only [Wasm.insertAtPosition, eo, e, bind, Except.bind]
  · cases hb
  · have hge : (A.children p).length ≤ pos := by
      rw [List.getElem?_eq_none_iff, hcs, List.length_map] at hocc; exact hocc
    obtain ⟨A', e, w, n, -, c, d⟩ := hA.fill_append hlt hxlt hxp hanc Document.emptyText
      (pos - (A.children p).length)
    refine ⟨p, pos, A', slots, hpar, ?_, ?_⟩
    · simp only [Wasm.insertAtPosition, List.getElem?_eq_none hge, docFillGaps_eq, bind, Except.bind,
        Wasm.appendChild_of e]
    · have hge2 : cs.length ≤ pos := by rw [hcs, List.length_map]; exact hge
      have := h.placed_new (pos := pos) hF hf hn w n
        (fun m hm => by rw [c, if_neg hm])
        (by rw [c, if_pos rfl, List.take_of_length_le hge, List.drop_eq_nil_of_le hge])
        (fun m => by rw [d, n])
      rw [List.take_of_length_le hge2, List.drop_eq_nil_of_le hge2] at this
      exact this

/-- A path leads to the same node after new nodes were made. -/
theorem find_grows (hF : Fence A0 b F) {hand : Option (Nat × Html)} {u : Html} {q : Path} {p : Nat}
    (h : Rep A0 b F A slots σ none) (h' : Rep A0 b F A' slots σ hand) (hg : Grows A A')
    (hf : σ.find q = some u) (hn : navigate A' slots q = .ok p) :
    navigate A slots q = .ok p ∧ A'.data p = A.data p := by
  obtain ⟨s, q', t', r, p1, rfl, hs, hrs, ht, hgt, hl, hn1, htp, ha, hlt⟩ := h.find hF hf
  have key : ∀ (q : List Nat) (r : Nat), r < A.next → navLoop A' r q = navLoop A r q := by
    intro q
    induction q with
    | nil => intro r _; rfl
    | cons i is ih =>
      intro r hr
      simp only [navLoop, hg.children r hr]
      cases e : (A.children r)[i]? with
      | none => rfl
      | some c =>
        exact ih c (h.grove.wf.lt_of_parent _ _ ((h.grove.wf.mem_iff _ _).1 (List.mem_of_getElem? e))).1
  have : navigate A' slots (s :: q') = .ok p1 := by
    simp only [navigate, hrs]
    rw [key q' r (h.grove.lt r (live_slot hs hrs)), hl]
  rw [hn] at this
  cases this
  exact ⟨hn1, hg.data p hlt⟩

theorem browser_take (hF : Fence A0 b F) (h : Rep A0 b F A (Wasm.view b slots) σ none) {path : Path}
    {t : Html} (ht : σ.take path = some (t, σ')) :
    (∃ s i is n A1, path = s :: i :: is ∧ Wasm.findNode b A slots path = .ok n ∧
      Wasm.replaceByEmpty A n = .ok A1 ∧ Rep A0 b F A1 (Wasm.view b slots) σ' (some (n, t))) ∨
    (∃ s x, path = [s] ∧ s ≠ 0 ∧ slots s = some x ∧
      Rep A0 b F A (Wasm.view b (Arena.upd slots s none)) σ' (some (x, t))) := by
  have hA := h.grove.wf
  unfold Store.take at ht
  cases ef : σ.find path with
  | none => rw [ef] at ht; cases ht
  | some u =>
    rw [ef] at ht
    obtain ⟨s, q', t', r, n, e2, hs, hrs, htr, hg, hl, hn, htn, ha, hlt⟩ := h.find hF ef
    subst e2
    cases q' with
    | nil =>
      simp only at ht
      split at ht
      · cases ht
      · next h0 =>
        cases ht
        cases hl
        cases hg
        have hrep := h.takeSlot h0 hs hrs
        have hsl : slots s = some r := by
          simp only [Wasm.view, Arena.upd_apply, if_neg h0] at hrs; exact hrs
        refine .inr ⟨s, r, rfl, h0, hsl, hrep.congr ?_ ?_⟩
        · simp [Wasm.view, Arena.upd_apply]
        · intro i hi
          rw [Wasm.view_upd h0, Arena.upd_apply]
          split
          · next e => subst e; simp [Store.slot] at hi
          · rfl
    | cons i is =>
      simp only [Option.some.injEq, Prod.mk.injEq] at ht
      obtain ⟨rfl, rfl⟩ := ht
      refine .inl ⟨s, i, is, n, ?_⟩
      obtain ⟨l, a, e⟩ : ∃ l a, i :: is = l ++ [a] := by
        rcases snoc_cases (i :: is) with e | e
        · cases e
        · exact e
      rw [e] at ef hn hl ⊢
      obtain ⟨p, _, hp2⟩ := navLoop_concat.1 hl
      have hpar := (hA.mem_iff _ _).1 (List.mem_of_getElem? hp2)
      obtain ⟨A1, e1, hr⟩ := Wasm.replaceByEmpty_repl hA hpar
      exact ⟨A1, rfl, hn, e1, h.replaced hF (q := s :: l) (by simp) ef hn hpar hr⟩

/-- Setting the text of an element. -/
theorem setTextContent_element (hA : A.WF) {n : Nat} (hn : n < A.next) {tag : Str} {attrs : Attrs}
    {ns : Ns} (hd : A.data n = ⟨.element tag attrs, ns⟩) (s : Str) :
    Changed A (Wasm.setTextContent A n s) n ∧ (Wasm.setTextContent A n s).data n = A.data n ∧
    (∀ m ∈ (Wasm.setTextContent A n s).children n, A.next ≤ m) ∧
    (Wasm.setTextContent A n s).forest n = if s = [] then [] else [.text s] := by
  have w1 := detachAll_wf hA (A.children n)
  have n1 := detachAll_next A (A.children n)
  have d1 := detachAll_data A (A.children n)
  have c1 := detachAll_kids hA n
  unfold Wasm.setTextContent
  rw [hd]
  simp only
  by_cases hs : s = []
  · simp only [if_pos hs]
    refine ⟨⟨w1, by omega, fun m _ hm => by rw [c1, if_neg hm], ?_, fun m _ _ => by rw [d1]⟩,
      by rw [d1, hd], ?_, ?_⟩
    · intro m q h1 h2
      rw [w1.children_ge (by omega)] at h2; cases h2
    · intro m hm; rw [c1, if_pos rfl] at hm; cases hm
    · rw [Arena.forest, c1, if_pos rfl]; rfl
  · simp only [if_neg hs]
    have w2 := w1.addChild (p := n) (by omega) ⟨.text s, .html⟩
    have n2 := Arena.addChild_next (detachAll A (A.children n)) n ⟨.text s, .html⟩
    have c2 := w1.addChild_children n ⟨.text s, .html⟩
    have d2 := Arena.addChild_data (detachAll A (A.children n)) n ⟨.text s, .html⟩
    rw [n1] at n2 c2 d2
    have hk : ((detachAll A (A.children n)).addChild n ⟨.text s, .html⟩).1.children n = [A.next] := by
      rw [c2, if_pos rfl, c1, if_pos rfl]; rfl
    refine ⟨⟨w2, by omega, fun m _ hm => by rw [c2, if_neg hm, c1, if_neg hm], ?_,
      fun m hm _ => by rw [d2, if_neg (by omega), d1]⟩, ?_, ?_, ?_⟩
    · intro m q h1 h2
      rw [c2, if_neg (by omega), c1, if_neg (by omega), hA.children_ge h1] at h2; cases h2
    · rw [d2, if_neg (by omega), d1, hd]
    · intro m hm; rw [hk] at hm; simp only [List.mem_singleton] at hm; omega
    · rw [Arena.forest, hk]
      simp only [List.map_cons, List.map_nil]
      rw [w2.tree_eq, d2, if_pos rfl]; rfl

theorem changed_refl (hA : A.WF) (n : Nat) : Changed A A n :=
  ⟨hA, Nat.le_refl _, fun _ _ _ => rfl,
    fun m q h1 h2 => (by rw [hA.children_ge h1] at h2; cases h2), fun _ _ _ => rfl⟩

theorem changed_setData {n : Nat} (h : Changed A A' n) (d : NodeData) : Changed A (A'.setData n d) n where
  wf := h.wf.setData n d
  le := h.le
  children := h.children
  fresh := h.fresh
  data := fun m hm hne => by
    simp only [Arena.setData, Arena.upd_apply, if_neg hne]; exact h.data m hm hne

/-- The text part of an `UpdateProps` patch. -/
def textStep (A : Arena NodeData) (n : Nat) (changes : List PropChange) : Arena NodeData :=
  match textChange changes with
  | some t => Wasm.setTextContent A n t
  | none => A

/-- The rest of an `UpdateProps` patch. -/
def attrStep (A : Arena NodeData) (n : Nat) (changes : List PropChange) : Arena NodeData :=
  match (A.data n).kind with
  | .element tag attrs => A.setData n ⟨.element tag (Wasm.updateAttrs attrs changes), (A.data n).ns⟩
  | _ => A

theorem applyPatch_updateProps {slots : Nat → Option Nat} {path : Path} {changes : List PropChange} {n : Nat}
    (hn : Wasm.findNode b A slots path = .ok n) :
    Wasm.applyPatch b A slots (.updateProps path changes) =
      .ok (attrStep (textStep A n changes) n changes, slots) := by
  have key : ∀ B : Arena NodeData, (match B.data n with
      | ⟨.element tag attrs, ns⟩ => Except.ok (B.setData n ⟨.element tag (Wasm.updateAttrs attrs changes), ns⟩, slots)
      | _ => Except.ok (B, slots)) = (Except.ok (attrStep B n changes, slots) : Res (Arena NodeData × (Nat → Option Nat))) := by
    intro B
    unfold attrStep
    cases hd : B.data n with
    | mk k ns => cases k <;> rfl
  rw [← key]
  simp only [Wasm.applyPatch, hn, bind, Except.bind, textStep, textChange]
  cases e : changes.find? (fun c => decide (c.name = .text)) with
  | none => rfl
  | some c =>
    obtain ⟨nm, v⟩ := c
    cases v <;> rfl

/-- Changing the data of an element, after its children were perhaps changed. -/
theorem setData' (hF : Fence A0 b F) {A1 : Arena NodeData} (h : Rep A0 b F A slots σ none) {path : Path}
    {u : Html} {n : Nat} (hf : σ.find path = some u) (hn : navigate A slots path = .ok n)
    (hc : Changed A A1 n) (hnew : ∀ m ∈ A1.children n, m ∈ A.children n ∨ A.next ≤ m)
    {tag : Str} {attrs : Attrs} {ns : Ns} {cs : List Html} (hcs : A1.forest n = cs) :
    Rep A0 b F (A1.setData n ⟨.element tag attrs, ns⟩) slots
      (σ.write path (.element tag attrs cs)) none := by
  refine h.write hF hf hn (changed_setData hc _) ?_ fun m hm => ?_
  · rw [(changed_setData hc _).wf.tree_eq]
    have e1 : ((A1.setData n ⟨.element tag attrs, ns⟩).data n) = ⟨.element tag attrs, ns⟩ := by
      simp [Arena.setData, Arena.upd_apply]
    rw [e1, ← hcs]
    simp only [Html.ofKind]
    congr 1
    apply List.map_congr_left
    intro m hm
    exact tree_child hc.wf (changed_setData (changed_refl hc.wf n) _) hm
  · rcases hnew m hm with h1 | h1
    · exact .inl h1
    · exact .inr (.inr h1)

/-- **One patch** of the browser client. -/
theorem browser_step (hF : Fence A0 b F) (h : Rep A0 b F A (Wasm.view b slots) σ none) {P : Patch}
    (ha : Dialect.page.apply σ P = some σ') :
    ∃ A' slots', Wasm.applyPatch b A slots P = .ok (A', slots') ∧
      Rep A0 b F A' (Wasm.view b slots') σ' none := by
  have hA := h.grove.wf
  -- inserting what `r` builds
  have ins : ∀ {r : Arena NodeData → Res (Arena NodeData × Nat)} {t : Html}, Builds r t →
      ∀ {at_ : Path} {slot : Option Nat}, σ.insert false at_ t slot = some σ' →
      ∃ p pos A1 x A' slots', Wasm.insertParent b A slots at_ = .ok (p, pos) ∧ r A = .ok (A1, x) ∧
        Wasm.insertAtPosition A1 slots p x pos slot = .ok (A', slots') ∧
        Rep A0 b F A' (Wasm.view b slots') σ' none := by
    intro r t hr at_ slot hi
    obtain ⟨A1, x, e, hg, hx, hx', hxp, htx⟩ := hr A hA
    have h1 := h.grabNew hF hg hx hx' hxp htx
    obtain ⟨p, pos, A', slots', e1, e2, hrep⟩ := h1.browser_insert hF hi
    refine ⟨p, pos, A1, x, A', slots', ?_, e, e2, hrep⟩
    rcases snoc_cases at_ with rfl | ⟨q, pos', rfl⟩
    · simp [Store.insert] at hi
    · obtain ⟨_, tag, attrs, cs, hf, _⟩ := insert_eq hi
      obtain ⟨_, _, _, _, p1, _, _, _, _, _, _, hn1, htp, _, _⟩ := h1.find hF hf
      have hel := (isElement_of_tree h1.grove.wf htp).1
      obtain ⟨hn, hd⟩ := find_grows hF h h1 hg hf hn1
      rw [Wasm.insertParent_eq hn1 hel] at e1
      cases e1
      exact Wasm.insertParent_eq hn (by rw [← hd]; exact hel)
  cases P with
  | insertElement at_ tag attrs cs slot =>
    obtain ⟨p, pos, A1, x, A', slots', e1, e2, e3, hr⟩ := ins
      (Wasm.createInsertContent_builds (.element tag attrs cs)) ha
    refine ⟨A', slots', ?_, hr⟩
    simp only [Wasm.applyPatch, e1, bind, Except.bind, e2, e3]
  | insertText at_ s slot =>
    obtain ⟨p, pos, A1, x, A', slots', e1, e2, e3, hr⟩ := ins
      (Wasm.createInsertContent_builds (.text s)) ha
    refine ⟨A', slots', ?_, hr⟩
    simp only [Wasm.createInsertContent] at e2
    simp only [Wasm.applyPatch, e1, bind, Except.bind]
    cases e2
    exact e3
  | insertComment at_ s slot =>
    obtain ⟨p, pos, A1, x, A', slots', e1, e2, e3, hr⟩ := ins
      (Wasm.createInsertContent_builds (.comment s)) ha
    refine ⟨A', slots', ?_, hr⟩
    simp only [Wasm.createInsertContent] at e2
    simp only [Wasm.applyPatch, e1, bind, Except.bind]
    cases e2
    exact e3
  | remove path =>
    simp only [Dialect.apply, Option.map_eq_some_iff, Prod.exists, exists_eq_right] at ha
    obtain ⟨t, ha⟩ := ha
    rcases h.browser_take hF ha with ⟨s, i, is, n, A1, rfl, hn, e, hr⟩ | ⟨s, x, rfl, h0, hs, hr⟩
    · exact ⟨A1, slots, by simp only [Wasm.applyPatch, hn, bind, Except.bind, e], hr.drop⟩
    · exact ⟨A, Arena.upd slots s none, by simp only [Wasm.applyPatch, if_neg h0], hr.drop⟩
  | move from_ to slot =>
    simp only [Dialect.apply] at ha
    cases et : σ.take from_ with
    | none => rw [et] at ha; cases ha
    | some r =>
      obtain ⟨t, σ1⟩ := r
      rw [et] at ha
      simp only [Dialect.page] at ha
      rcases h.browser_take hF et with ⟨s, i, is, n, A1, rfl, hn, e, hr⟩ | ⟨s, x, rfl, h0, hs, hr⟩
      · obtain ⟨p, pos, A', slots', e1, e2, hr2⟩ := hr.browser_insert hF ha
        refine ⟨A', slots', ?_, hr2⟩
        simp only [Wasm.applyPatch, hn, bind, Except.bind, e, e1, e2]
      · obtain ⟨p, pos, A', slots', e1, e2, hr2⟩ := hr.browser_insert hF ha
        refine ⟨A', slots', ?_, hr2⟩
        simp only [Wasm.applyPatch, hs, bind, Except.bind, e1, e2]
  | setText path s =>
    simp only [Dialect.apply] at ha
    cases ef : σ.find path with
    | none => rw [ef] at ha; cases ha
    | some u =>
      rw [ef] at ha
      obtain ⟨_, _, _, _, n, _, _, _, _, _, _, hn, htn, _, hlt⟩ := h.find hF ef
      have hk := kind_of_tree hA htn
      refine ⟨Wasm.setTextContent A n s, slots, by
        simp only [Wasm.applyPatch, Wasm.findNode, hn, bind, Except.bind], ?_⟩
      cases ed : A.data n with
      | mk k ns =>
        rw [ed] at hk
        cases k with
        | text s0 =>
          simp only [Html.ofKind] at hk
          subst hk
          simp only [Option.some.injEq] at ha
          subst ha
          have : Wasm.setTextContent A n s = A.setData n ⟨.text s, ns⟩ := by
            unfold Wasm.setTextContent; rw [ed]
          rw [this]
          exact h.setData hF ef hn ⟨.text s, ns⟩ rfl
        | comment s0 =>
          simp only [Html.ofKind] at hk
          subst hk
          simp only [Option.some.injEq] at ha
          subst ha
          have : Wasm.setTextContent A n s = A.setData n ⟨.comment s, ns⟩ := by
            unfold Wasm.setTextContent; rw [ed]
          rw [this]
          exact h.setData hF ef hn ⟨.comment s, ns⟩ rfl
        | element tag attrs =>
          simp only [Html.ofKind] at hk
          subst hk
          simp only [Dialect.page, Option.map_some, Option.some.injEq] at ha
          subst ha
          obtain ⟨hc, hd, hnew, hfor⟩ := setTextContent_element hA hlt ed s
          refine h.write hF ef hn hc ?_ fun m hm => .inr (.inr (hnew m hm))
          rw [hc.wf.tree_eq, hd, ed, hfor]
          rfl
        | document => simp only [Html.ofKind] at hk; subst hk; cases ha
  | setAttribute path name v =>
    simp only [Dialect.apply] at ha
    cases ef : σ.find path with
    | none => rw [ef] at ha; cases ha
    | some u =>
      rw [ef] at ha
      obtain ⟨_, _, _, _, n, _, _, _, _, _, _, hn, htn, _, hlt⟩ := h.find hF ef
      have hk := kind_of_tree hA htn
      cases ed : A.data n with
      | mk k ns =>
        rw [ed] at hk
        cases k with
        | element tag attrs =>
          simp only [Html.ofKind] at hk
          subst hk
          simp only [Option.some.injEq] at ha
          subst ha
          refine ⟨A.setData n ⟨.element tag (Wasm.setAttribute (Wasm.domName name) v attrs), ns⟩, slots, ?_,
            h.setData hF ef hn _ (by
              simp only [Html.ofKind, Wasm.setAttribute_eq, ← shown_eq]; rfl)⟩
          simp only [Wasm.applyPatch, Wasm.findNode, hn, bind, Except.bind, ed]
        | text s0 => simp only [Html.ofKind] at hk; subst hk; cases ha
        | comment s0 => simp only [Html.ofKind] at hk; subst hk; cases ha
        | document => simp only [Html.ofKind] at hk; subst hk; cases ha
  | removeAttribute path name =>
    simp only [Dialect.apply] at ha
    cases ef : σ.find path with
    | none => rw [ef] at ha; cases ha
    | some u =>
      rw [ef] at ha
      obtain ⟨_, _, _, _, n, _, _, _, _, _, _, hn, htn, _, hlt⟩ := h.find hF ef
      have hk := kind_of_tree hA htn
      cases ed : A.data n with
      | mk k ns =>
        rw [ed] at hk
        cases k with
        | element tag attrs =>
          simp only [Html.ofKind] at hk
          subst hk
          simp only [Option.some.injEq] at ha
          subst ha
          refine ⟨A.setData n ⟨.element tag (Wasm.removeAttribute (Wasm.domName name) attrs), ns⟩, slots, ?_,
            h.setData hF ef hn _ (by simp only [Html.ofKind, Wasm.removeAttribute_eq])⟩
          simp only [Wasm.applyPatch, Wasm.findNode, hn, bind, Except.bind, ed]
        | text s0 => simp only [Html.ofKind] at hk; subst hk; cases ha
        | comment s0 => simp only [Html.ofKind] at hk; subst hk; cases ha
        | document => simp only [Html.ofKind] at hk; subst hk; cases ha
  | updateProps path changes =>
    simp only [Dialect.apply] at ha
    cases ef : σ.find path with
    | none => rw [ef] at ha; cases ha
    | some u =>
      rw [ef] at ha
      obtain ⟨_, _, _, _, n, _, _, _, _, _, _, hn, htn, _, hlt⟩ := h.find hF ef
      have hk := kind_of_tree hA htn
      rw [applyPatch_updateProps hn]
      refine ⟨_, slots, rfl, ?_⟩
      cases ed : A.data n with
      | mk k ns =>
        rw [ed] at hk
        cases k with
        | text s0 =>
          simp only [Html.ofKind] at hk
          subst hk
          simp only [Option.some.injEq] at ha
          subst ha
          unfold textStep
          cases et : textChange changes with
          | none =>
            simp only [attrStep, ed, Option.getD_none]
            exact h.write hF ef hn (changed_refl hA n) htn fun m hm => .inl hm
          | some t =>
            have : Wasm.setTextContent A n t = A.setData n ⟨.text t, ns⟩ := by
              unfold Wasm.setTextContent; rw [ed]
            simp only [this, attrStep, Arena.setData, Arena.upd_apply, if_true, Option.getD_some]
            exact h.setData hF ef hn ⟨.text t, ns⟩ rfl
        | comment s0 =>
          simp only [Html.ofKind] at hk
          subst hk
          simp only [Option.some.injEq] at ha
          subst ha
          unfold textStep
          cases et : textChange changes with
          | none =>
            simp only [attrStep, ed, Option.getD_none]
            exact h.write hF ef hn (changed_refl hA n) htn fun m hm => .inl hm
          | some t =>
            have : Wasm.setTextContent A n t = A.setData n ⟨.comment t, ns⟩ := by
              unfold Wasm.setTextContent; rw [ed]
            simp only [this, attrStep, Arena.setData, Arena.upd_apply, if_true, Option.getD_some]
            exact h.setData hF ef hn ⟨.comment t, ns⟩ rfl
        | element tag attrs =>
          simp only [Html.ofKind] at hk
          subst hk
          simp only [Option.some.injEq] at ha
          subst ha
          obtain ⟨hc, hd, hnew, hfor⟩ : Changed A (textStep A n changes) n ∧
              (textStep A n changes).data n = A.data n ∧
              (∀ m ∈ (textStep A n changes).children n, m ∈ A.children n ∨ A.next ≤ m) ∧
              (textStep A n changes).forest n = (match Dialect.page.elementText, textChange changes with
                | some f, some t => f t
                | _, _ => A.forest n) := by
            unfold textStep
            cases et : textChange changes with
            | none => exact ⟨changed_refl hA n, rfl, fun m hm => .inl hm, rfl⟩
            | some t =>
              obtain ⟨h1, h2, h3, h4⟩ := setTextContent_element hA hlt ed t
              exact ⟨h1, h2, fun m hm => .inr (h3 m hm), h4⟩
          have e2 : attrStep (textStep A n changes) n changes = (textStep A n changes).setData n
              ⟨.element tag (Wasm.updateAttrs attrs changes), ns⟩ := by
            unfold attrStep; rw [hd, ed]
          rw [e2, Wasm.updateAttrs_eq]
          exact h.setData' hF ef hn hc hnew hfor
        | document => simp only [Html.ofKind] at hk; subst hk; cases ha
  | opaqueChanged path s =>
    simp only [Dialect.apply] at ha
    cases ef : σ.find path with
    | none => rw [ef] at ha; cases ha
    | some u =>
      rw [ef] at ha
      obtain ⟨_, _, _, _, n, _, _, _, _, _, _, hn, htn, _, hlt⟩ := h.find hF ef
      cases u with
      | element tag attrs cs =>
        simp only [Option.some.injEq] at ha
        subst ha
        refine ⟨A, slots, ?_, h.write hF ef hn (changed_refl hA n) htn fun m hm => .inl hm⟩
        obtain ⟨⟨t, a, hk⟩, _⟩ := isElement_of_tree hA htn
        simp only [Wasm.applyPatch, Wasm.findNode, hn, bind, Except.bind, Wasm.asElement, hk]
      | _ => cases ha

end Rep
end Hotmeal
