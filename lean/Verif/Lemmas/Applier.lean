import Verif.Lemmas.Struct

set_option autoImplicit false

/-!
# What the proofs need to know about a patch applier

The library applies patches to its own document, the browser client applies them to the DOM of
the page. Both satisfy the laws below; the simulation proof uses nothing else.
-/

namespace Hotmeal

/-- The patch inserting a node; elements with content. -/
def insertPatch (at_ : Path) (k : NodeKind) (cs : List InsertContent) (slot : Option Nat) : Patch :=
  match k with
  | .element tag attrs => .insertElement at_ tag attrs cs slot
  | .text s => .insertText at_ s slot
  | .comment s => .insertComment at_ s slot
  | .document => .insertComment at_ [] slot

/-- Attribute names of the node kind are distinct; no document node. -/
def NodeKind.Clean : NodeKind → Prop
  | .element _ attrs => attrs.keys.Nodup
  | .document => False
  | _ => True

def NodeKind.IsElement (k : NodeKind) : Prop := ∃ tag attrs, k = .element tag attrs

/-- `n`, found at `q`, was taken out: either replaced by an empty text node or, when it was the
content of a slot, taken as is. -/
def Taken (D : Arena NodeData) (slots : Slots) (q : Path) (n : Nat) (D1 : Arena NodeData)
    (slots1 : Slots) : Prop :=
  (1 < q.length ∧ slots1 = slots ∧ ∀ p, D.parent n = some p →
    D.Replaced D1 n p Document.emptyText) ∨
  (∃ k, q = [k] ∧ D1 = D ∧ (slots1 = slots ∨ slots1 = Arena.upd slots k none))

abbrev StepFn := Arena NodeData → Slots → Patch → Res (Arena NodeData × Slots)

/-- The laws, for documents patched below `root`. -/
structure Lawful (root : Nat) (step : StepFn) : Prop where
  setText_text : ∀ D slots q n s ns t, slots 0 = some root → navigate D slots q = .ok n →
    D.data n = ⟨.text s, ns⟩ →
    step D slots (.setText q t) = .ok (D.setData n ⟨.text t, ns⟩, slots)
  setText_comment : ∀ D slots q n s ns t, slots 0 = some root → navigate D slots q = .ok n →
    D.data n = ⟨.comment s, ns⟩ →
    step D slots (.setText q t) = .ok (D.setData n ⟨.comment t, ns⟩, slots)
  updateProps : ∀ D slots q n tag attrs ns changes, slots 0 = some root →
    navigate D slots q = .ok n →
    D.data n = ⟨.element tag attrs, ns⟩ → attrs.keys.Nodup →
    (changes.map PropChange.name).Nodup → PropKey.text ∉ changes.map PropChange.name →
    step D slots (.updateProps q changes) =
      .ok (D.setData n ⟨.element tag (rebuildAttrs attrs changes), ns⟩, slots)
  remove : ∀ D slots q n p, slots 0 = some root → D.WF → navigate D slots q = .ok n →
    1 < q.length → D.parent n = some p →
    ∃ D', step D slots (.remove q) = .ok (D', slots) ∧ D.Replaced D' n p Document.emptyText
  removeFree : ∀ D slots k n, slots 0 = some root → D.WF → k ≠ 0 → slots k = some n → n < D.next →
    D.parent n = none →
    ∃ D' slots', step D slots (.remove [k]) = .ok (D', slots') ∧
      (D' = D ∨ D' = (D.newNode Document.emptyText).1) ∧
      (slots' = slots ∨ slots' = Arena.upd slots k none)
  insert : ∀ D slots q nk cs p, slots 0 = some root → D.WF → nk.Clean → (cs ≠ [] → nk.IsElement) →
    navigate D slots q = .ok p → (D.data p).kind.IsElement → p < D.next →
    ∃ D1, Created D D1 ⟨nk, .html⟩ ∧ D1.forest D.next = InsertContent.htmlL cs ∧
      (∀ i, D.next ≤ i → i < D1.next → (D1.data i).ns = .html) ∧
      (∀ pos occ k, k ≠ 0 → (D.children p)[pos]? = some occ →
        ∃ D', step D slots (insertPatch (q ++ [pos]) nk cs (some k)) =
            .ok (D', Arena.upd slots k (some occ)) ∧ DPut D1 D' D.next p pos occ) ∧
      (∀ pos, ∃ D', step D slots (insertPatch (q ++ [pos]) nk cs none) = .ok (D', slots) ∧
        DApp D1 D' D.next p pos)
  move : ∀ D slots q n, slots 0 = some root → D.WF → navigate D slots q = .ok n → n < D.next →
    ((1 < q.length ∧ ∃ p, D.parent n = some p) ∨ (q.length = 1 ∧ q ≠ [0] ∧ D.parent n = none)) →
    ∃ D1 slots1, Taken D slots q n D1 slots1 ∧
      (∀ q' p pos occ k, k ≠ 0 → navigate D1 slots1 q' = .ok p → (D1.data p).kind.IsElement →
        p < D1.next → ¬ D1.Anc n p → (D1.children p)[pos]? = some occ →
        ∃ D', step D slots (.move q (q' ++ [pos]) (some k)) =
            .ok (D', Arena.upd slots1 k (some occ)) ∧ DPut D1 D' n p pos occ) ∧
      (∀ q' p pos, navigate D1 slots1 q' = .ok p → (D1.data p).kind.IsElement → p < D1.next →
        ¬ D1.Anc n p →
        ∃ D', step D slots (.move q (q' ++ [pos]) none) = .ok (D', slots1) ∧ DApp D1 D' n p pos)

/-- How a node is put at index `pos` below `p`: either the node that is there goes to a new slot,
or there is none, apart from surplus nodes (`J`). -/
def AtPos (J : Nat → Prop) (D : Arena NodeData) (p pos : Nat) (slot : Option Nat) : Prop :=
  (∃ k occ, slot = some k ∧ k ≠ 0 ∧ (D.children p)[pos]? = some occ) ∨
  (slot = none ∧ ∀ j ∈ (D.children p).drop pos, J j)

/-- Patches whose effect is given by the laws: what the generated patches are like at the time
when they are applied. -/
inductive Regular (J : Nat → Prop) (D : Arena NodeData) (slots : Slots) : Patch → Prop
  | setText (q : Path) (n : Nat) (s : Str) (ns : Ns) (t : Str) (hq : navigate D slots q = .ok n)
      (hd : D.data n = ⟨.text s, ns⟩ ∨ D.data n = ⟨.comment s, ns⟩) : Regular J D slots (.setText q t)
  | updateProps (q : Path) (n : Nat) (tag : Str) (attrs : Attrs) (ns : Ns)
      (changes : List PropChange) (hq : navigate D slots q = .ok n)
      (hd : D.data n = ⟨.element tag attrs, ns⟩) (hk : attrs.keys.Nodup)
      (hn : (changes.map PropChange.name).Nodup) (ht : PropKey.text ∉ changes.map PropChange.name) :
      Regular J D slots (.updateProps q changes)
  | remove (q : Path) (n p : Nat) (hq : navigate D slots q = .ok n) (hl : 1 < q.length)
      (hp : D.parent n = some p) : Regular J D slots (.remove q)
  | removeFree (k n : Nat) (hk : k ≠ 0) (hs : slots k = some n) (hn : n < D.next)
      (hp : D.parent n = none) : Regular J D slots (.remove [k])
  | insert (q : Path) (nk : NodeKind) (cs : List InsertContent) (p pos : Nat) (slot : Option Nat)
      (hc : nk.Clean) (hcs : cs ≠ [] → nk.IsElement)
      (hq : navigate D slots q = .ok p) (he : (D.data p).kind.IsElement) (hp : p < D.next)
      (ha : AtPos J D p pos slot) : Regular J D slots (insertPatch (q ++ [pos]) nk cs slot)
  | move (q : Path) (n : Nat) (q' : Path) (p pos : Nat) (slot : Option Nat)
      (hq : navigate D slots q = .ok n) (hn : n < D.next)
      (hc : (1 < q.length ∧ ∃ p, D.parent n = some p) ∨
        (q.length = 1 ∧ q ≠ [0] ∧ D.parent n = none))
      (hm : ∀ D1 slots1, Taken D slots q n D1 slots1 → navigate D1 slots1 q' = .ok p ∧
        (D1.data p).kind.IsElement ∧ p < D1.next ∧ ¬ D1.Anc n p ∧ AtPos J D1 p pos slot) :
      Regular J D slots (.move q (q' ++ [pos]) slot)

/-- A new node has no strict descendants. -/
theorem not_anc_new {D : Arena NodeData} (h : D.WF) (d : NodeData) {p : Nat} (hp : p < D.next) :
    ¬ (D.newNode d).1.Anc D.next p := by
  intro ha
  have := h.anc_lt ((h.anc_newNode d).1 ha) hp
  omega

theorem navLoop_congr {A B : Arena NodeData} (h : ∀ m, A.children m = B.children m) (n : Nat)
    (q : List Nat) : navLoop A n q = navLoop B n q := by
  induction q generalizing n with
  | nil => rfl
  | cons i is ih =>
    simp only [navLoop, h]
    split
    · rfl
    · exact ih _

theorem navigate_congr {A B : Arena NodeData} (h : ∀ m, A.children m = B.children m)
    (slots : Slots) (q : Path) : navigate A slots q = navigate B slots q := by
  cases q with
  | nil => rfl
  | cons s rest =>
    simp only [navigate]
    split
    · rfl
    · exact navLoop_congr h _ _

theorem navigate_newNode {D : Arena NodeData} (h : D.WF) (d : NodeData) (slots : Slots) (q : Path) :
    navigate (D.newNode d).1 slots q = navigate D slots q :=
  navigate_congr (fun m => h.newNode_children d m) slots q

/-- Applying an insert patch: create the node with its content, then place it. -/
theorem applyPatch_insertPatch (parse : Str → Document) {D : Arena NodeData} (hw : D.WF)
    {nk : NodeKind} {cs : List InsertContent} (hnk : nk.Clean) (hcs : cs ≠ [] → nk.IsElement) :
    ∃ D1, Created D D1 ⟨nk, .html⟩ ∧ D1.forest D.next = InsertContent.htmlL cs ∧
      (∀ i, D.next ≤ i → i < D1.next → (D1.data i).ns = .html) ∧
      ∀ slots at_ slot, applyPatch parse D slots (insertPatch at_ nk cs slot) =
        insertAt D1 slots at_ D.next slot := by
  have hleaf : (∀ tag attrs, nk ≠ .element tag attrs) → cs = [] := by
    intro h
    apply Classical.byContradiction
    intro e
    obtain ⟨tag, attrs, e⟩ := hcs e
    exact h _ _ e
  have hplain : ∀ nk, cs = [] → Created D (D.newNode ⟨nk, .html⟩).1 ⟨nk, .html⟩ ∧
      (D.newNode ⟨nk, .html⟩).1.forest D.next = InsertContent.htmlL cs ∧
      (∀ i, D.next ≤ i → i < (D.newNode ⟨nk, .html⟩).1.next →
        ((D.newNode ⟨nk, .html⟩).1.data i).ns = .html) := by
    rintro nk rfl
    refine ⟨hw.created _, ?_, ?_⟩
    · rw [Arena.forest, hw.newNode_children, hw.children_ge (Nat.le_refl _)]; rfl
    · intro i h1 h2
      rw [Arena.newNode_next] at h2
      rw [Arena.newNode_data, if_pos (by omega)]
  cases nk with
  | document => exact hnk.elim
  | element tag attrs =>
    obtain ⟨D1, e, h1, h2, h3⟩ := hw.createdContent tag attrs cs
    refine ⟨D1, h1, h2, h3, fun slots at_ slot => ?_⟩
    simp only [insertPatch, applyPatch, bind, Except.bind, Arena.newNode_snd, e]
  | text s =>
    obtain ⟨h1, h2, h3⟩ := hplain (.text s) (hleaf (fun _ _ e => by cases e))
    refine ⟨_, h1, h2, h3, fun slots at_ slot => ?_⟩
    simp only [insertPatch, applyPatch, Arena.newNode_snd]
  | comment s =>
    obtain ⟨h1, h2, h3⟩ := hplain (.comment s) (hleaf (fun _ _ e => by cases e))
    refine ⟨_, h1, h2, h3, fun slots at_ slot => ?_⟩
    simp only [insertPatch, applyPatch, Arena.newNode_snd]

/-- `Document::apply_patch` satisfies the laws. -/
theorem lawful_native (parse : Str → Document) (root : Nat) :
    Lawful root (applyPatch parse) where
  setText_text := by
    intro D slots q n s ns t _ hq hd
    simp only [applyPatch, hq, bind, Except.bind, hd]
  setText_comment := by
    intro D slots q n s ns t _ hq hd
    simp only [applyPatch, hq, bind, Except.bind, hd]
  updateProps := by
    intro D slots q n tag attrs ns changes _ hq hd _ _ _
    simp only [applyPatch, hq, bind, Except.bind, hd]
  remove := by
    intro D slots q n p _ hw hq _ hp
    obtain ⟨D', e, hr⟩ := replaceByEmpty_repl hw hp
    exact ⟨D', by simp only [applyPatch, hq, bind, Except.bind, e], hr⟩
  removeFree := by
    intro D slots k n _ hw _ hs hn hp
    refine ⟨(D.newNode Document.emptyText).1, slots, ?_, .inr rfl, .inl rfl⟩
    simp only [applyPatch, navigate, hs, navLoop, bind, Except.bind, replaceByEmpty_free hw hn hp]
  insert := by
    intro D slots q nk cs p _ hw hnk hcs hq _ hp
    obtain ⟨D1, h1, h2, h3, h4⟩ := applyPatch_insertPatch parse hw hnk hcs
    refine ⟨D1, h1, h2, h3, ?_, ?_⟩
    · intro pos occ k _ hocc
      rw [h4]
      exact insertAt_put h1.wf (h1.navigate hw hq) (by rw [h1.children p hp]; exact hocc)
        h1.next_lt h1.self (h1.not_anc hw hp)
    · intro pos
      rw [h4]
      exact insertAt_app h1.wf (h1.navigate hw hq) (Nat.lt_trans hp h1.next_lt) h1.next_lt h1.self
        (h1.not_anc hw hp)
  move := by
    intro D slots q n _ hw hq hn hcase
    rcases hcase with ⟨hl, p, hp⟩ | ⟨hl, hq0, hp⟩
    · obtain ⟨D1, e, hr⟩ := replaceByEmpty_repl hw hp
      refine ⟨D1, slots, .inl ⟨hl, rfl, ?_⟩, ?_, ?_⟩
      · intro p' hp'; rw [hp] at hp'; cases hp'; exact hr
      · intro q' p' pos occ k _ hq' _ hp' ha hocc
        simp only [applyPatch, hq, bind, Except.bind, if_pos hl, e]
        refine insertAt_put hr.wf hq' hocc ?_ ?_ ha
        · rw [hr.next]; omega
        · rw [hr.parent]; simp
      · intro q' p' pos hq' _ hp' ha
        simp only [applyPatch, hq, bind, Except.bind, if_pos hl, e]
        refine insertAt_app hr.wf hq' hp' ?_ ?_ ha
        · rw [hr.next]; omega
        · rw [hr.parent]; simp
    · have hl' : ¬ 1 < q.length := by omega
      obtain ⟨k0, rfl⟩ : ∃ k, q = [k] := by
        match q, hl with
        | [k], _ => exact ⟨k, rfl⟩
      refine ⟨D, slots, .inr ⟨k0, rfl, rfl, .inl rfl⟩, ?_, ?_⟩
      · intro q' p' pos occ k _ hq' _ hp' ha hocc
        simp only [applyPatch, hq, bind, Except.bind, if_neg hl', Arena.detach_of_parent_none hp]
        exact insertAt_put hw hq' hocc hn hp ha
      · intro q' p' pos hq' _ hp' ha
        simp only [applyPatch, hq, bind, Except.bind, if_neg hl', Arena.detach_of_parent_none hp]
        exact insertAt_app hw hq' hp' hn hp ha

end Hotmeal
