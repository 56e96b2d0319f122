import Verif.Model.Dom
import Verif.Props.Slots

set_option autoImplicit false
set_option linter.unusedSectionVars false

/-!
# Patches stay inside

Whatever patches are applied, in whatever state (the links need not even form a tree): the nodes
outside a subtree are not touched, as long as no patch addresses the subtree's root as a node to
remove or to move and no patch overwrites slot 0.
-/

namespace Hotmeal

/-- The tag of an element. -/
def NodeKind.tag? : NodeKind → Option Str
  | .element tag _ => some tag
  | _ => none

/-- The nodes in `F` are as in `A0`, no other node than `b` has a parent in `F`, and no node outside
`F` has a child in `F` or the child `b`. -/
structure Sealed (A0 : Arena NodeData) (b : Nat) (F : Nat → Prop) (A : Arena NodeData) : Prop where
  le : A0.next ≤ A.next
  lt : ∀ m, F m → m < A0.next
  blt : b < A0.next
  bout : ¬ F b
  parent : ∀ m, F m → A.parent m = A0.parent m
  children : ∀ m, F m → A.children m = A0.children m
  data : ∀ m, F m → A.data m = A0.data m
  bpar : A.parent b = A0.parent b
  btag : (A.data b).kind.tag? = (A0.data b).kind.tag?
  up : ∀ m p, ¬ F m → m ≠ b → A.parent m = some p → ¬ F p
  down : ∀ m c, ¬ F m → c ∈ A.children m → ¬ F c ∧ c ≠ b

/-- A node that may be taken out and put elsewhere. -/
def Inside (b : Nat) (F : Nat → Prop) (n : Nat) : Prop := ¬ F n ∧ n ≠ b

namespace Sealed

variable {A0 A A' : Arena NodeData} {b : Nat} {F : Nat → Prop}

theorem newNode (h : Sealed A0 b F A) (d : NodeData) :
    Sealed A0 b F (A.newNode d).1 ∧ Inside b F (A.newNode d).2 := by
  have hF : ∀ m, F m → m ≠ A.next := by
    intro m hm e; have := h.lt m hm; have := h.le; omega
  have hb : b ≠ A.next := by have := h.blt; have := h.le; omega
  refine ⟨⟨Nat.le_succ_of_le h.le, h.lt, h.blt, h.bout, ?_, ?_, ?_, ?_, ?_, ?_, ?_⟩, fun hm => hF _ hm rfl, hb.symm⟩
  · intro m hm; simp only [Arena.newNode, Arena.upd_apply, if_neg (hF m hm)]; exact h.parent m hm
  · intro m hm; simp only [Arena.newNode, Arena.upd_apply, if_neg (hF m hm)]; exact h.children m hm
  · intro m hm; simp only [Arena.newNode, Arena.upd_apply, if_neg (hF m hm)]; exact h.data m hm
  · simp only [Arena.newNode, Arena.upd_apply, if_neg hb]; exact h.bpar
  · simp only [Arena.newNode, Arena.upd_apply, if_neg hb]; exact h.btag
  · intro m p h1 h2 h3
    simp only [Arena.newNode, Arena.upd_apply] at h3
    split at h3
    · cases h3
    · exact h.up m p h1 h2 h3
  · intro m c h1 h2
    simp only [Arena.newNode, Arena.upd_apply] at h2
    split at h2
    · cases h2
    · exact h.down m c h1 h2

theorem setData (h : Sealed A0 b F A) {n : Nat} (hn : ¬ F n) (d : NodeData)
    (ht : d.kind.tag? = (A.data n).kind.tag?) :
    Sealed A0 b F (A.setData n d) := by
  refine ⟨h.le, h.lt, h.blt, h.bout, h.parent, h.children, ?_, h.bpar, ?_, h.up, h.down⟩
  · intro m hm
    simp only [Arena.setData, Arena.upd_apply]
    rw [if_neg (by rintro rfl; exact hn hm)]
    exact h.data m hm
  · simp only [Arena.setData, Arena.upd_apply]
    split
    · next e => rw [ht, ← e]; exact h.btag
    · exact h.btag

theorem detach (h : Sealed A0 b F A) {n : Nat} (hn : Inside b F n) : Sealed A0 b F (A.detach n) := by
  unfold Arena.detach
  split
  · exact h
  · next p hp =>
    have hpF := h.up n p hn.1 hn.2 hp
    refine ⟨h.le, h.lt, h.blt, h.bout, ?_, ?_, h.data, ?_, h.btag, ?_, ?_⟩
    · intro m hm
      simp only [Arena.upd_apply]
      rw [if_neg (by rintro rfl; exact hn.1 hm)]; exact h.parent m hm
    · intro m hm
      simp only [Arena.upd_apply]
      rw [if_neg (by rintro rfl; exact hpF hm)]; exact h.children m hm
    · simp only [Arena.upd_apply]; rw [if_neg (Ne.symm hn.2)]; exact h.bpar
    · intro m q h1 h2 h3
      simp only [Arena.upd_apply] at h3
      split at h3
      · cases h3
      · exact h.up m q h1 h2 h3
    · intro m c h1 h2
      simp only [Arena.upd_apply] at h2
      split at h2
      · exact h.down p c hpF (List.mem_of_mem_erase h2)
      · exact h.down m c h1 h2

/-- Linking an inside node below a node outside of `F`. -/
theorem link (h : Sealed A0 b F A) {p c : Nat} (hp : ¬ F p) (hc : Inside b F c) (l : List Nat)
    (hl : ∀ x ∈ l, x ∈ A.children p ∨ x = c) :
    Sealed A0 b F { A with
      parent := Arena.upd A.parent c (some p)
      children := Arena.upd A.children p l } := by
  refine ⟨h.le, h.lt, h.blt, h.bout, ?_, ?_, h.data, ?_, h.btag, ?_, ?_⟩
  · intro m hm
    simp only [Arena.upd_apply]
    rw [if_neg (by rintro rfl; exact hc.1 hm)]; exact h.parent m hm
  · intro m hm
    simp only [Arena.upd_apply]
    rw [if_neg (by rintro rfl; exact hp hm)]; exact h.children m hm
  · simp only [Arena.upd_apply]; rw [if_neg (Ne.symm hc.2)]; exact h.bpar
  · intro m q h1 h2 h3
    simp only [Arena.upd_apply] at h3
    split at h3
    · cases h3; exact hp
    · exact h.up m q h1 h2 h3
  · intro m x h1 h2
    simp only [Arena.upd_apply] at h2
    split at h2
    · rcases hl x h2 with h2 | rfl
      · exact h.down p x hp h2
      · exact hc
    · exact h.down m x h1 h2

theorem appendRaw (h : Sealed A0 b F A) {p c : Nat} (hp : ¬ F p) (hc : Inside b F c) :
    Sealed A0 b F (A.appendRaw p c) := by
  refine (h.detach hc).link hp hc _ fun x hx => ?_
  rcases List.mem_append.1 hx with hx | hx
  · exact .inl hx
  · exact .inr (by simpa using hx)

theorem append (h : Sealed A0 b F A) {p c : Nat} (hp : ¬ F p) (hc : Inside b F c)
    (e : A.append p c = .ok A') : Sealed A0 b F A' := by
  unfold Arena.append at e
  split at e
  · cases e
  · cases e; exact h.appendRaw hp hc

theorem mem_insBefore {s x y : Nat} {l : List Nat} (h : y ∈ Arena.insBefore s x l) : y ∈ l ∨ y = x := by
  induction l with
  | nil => cases h
  | cons z l ih =>
    unfold Arena.insBefore at h
    split at h
    · rcases List.mem_cons.1 h with h | h
      · exact .inr h
      · exact .inl h
    · rcases List.mem_cons.1 h with h | h
      · exact .inl (by simp [h])
      · rcases ih h with h | h
        · exact .inl (List.mem_cons_of_mem _ h)
        · exact .inr h

theorem insertBefore (h : Sealed A0 b F A) {s c : Nat} (hs : Inside b F s) (hc : Inside b F c)
    (e : A.insertBefore s c = .ok A') : Sealed A0 b F A' := by
  unfold Arena.insertBefore at e
  split at e
  · cases e
  · simp only at e
    split at e
    · cases e; exact h.detach hc
    · next p hp =>
      split at e
      · cases e
      · cases e
        exact (h.detach hc).link ((h.detach hc).up s p hs.1 hs.2 hp) hc _ fun x hx => mem_insBefore hx

theorem replaceByEmpty (h : Sealed A0 b F A) {n : Nat} (hn : Inside b F n)
    (e : replaceByEmpty A n = .ok A') : Sealed A0 b F A' := by
  obtain ⟨h1, h2⟩ := h.newNode Document.emptyText
  unfold Hotmeal.replaceByEmpty at e
  obtain ⟨A1, e1, e2⟩ := res_bind e
  cases e2
  exact (h1.insertBefore hn h2 e1).detach hn

theorem fillGaps (h : Sealed A0 b F A) {p : Nat} (hp : ¬ F p) (k : Nat) :
    Sealed A0 b F (fillGaps A p k) := by
  induction k generalizing A with
  | zero => exact h
  | succ k ih =>
    obtain ⟨h1, h2⟩ := h.newNode Document.emptyText
    exact ih (h1.appendRaw hp h2)

theorem insertAtPosition (h : Sealed A0 b F A) {p pos n : Nat} (hp : ¬ F p) (hn : Inside b F n)
    (e : insertAtPosition A p pos n = .ok A') : Sealed A0 b F A' := by
  unfold Hotmeal.insertAtPosition at e
  have h1 := h.fillGaps hp (pos - (A.children p).length)
  simp only at e
  split at e
  · exact h1.append hp hn e
  · next sib hs => exact h1.insertBefore (h1.down p sib hp (List.mem_of_getElem? hs)) hn e

/-- What the slots hold. -/
structure SlotsOk (b : Nat) (F : Nat → Prop) (slots : Slots) : Prop where
  zero : slots 0 = some b
  rest : ∀ s r, s ≠ 0 → slots s = some r → Inside b F r

theorem navLoop_inside (h : Sealed A0 b F A) {r n : Nat} (hr : ¬ F r) {q : List Nat}
    (e : navLoop A r q = .ok n) : ¬ F n ∧ (q ≠ [] → n ≠ b) := by
  induction q generalizing r with
  | nil => cases e; exact ⟨hr, fun hne => absurd rfl hne⟩
  | cons i is ih =>
    simp only [navLoop] at e
    split at e
    · cases e
    · next c hc =>
      obtain ⟨h1, h2⟩ := h.down r c hr (List.mem_of_getElem? hc)
      obtain ⟨h3, h4⟩ := ih h1 e
      refine ⟨h3, fun _ => ?_⟩
      cases is with
      | nil => cases e; exact h2
      | cons j js => exact h4 (by simp)

theorem navigate_inside (h : Sealed A0 b F A) {slots : Slots} (hs : SlotsOk b F slots) {n : Nat}
    {path : Path} (e : navigate A slots path = .ok n) : ¬ F n ∧ (path ≠ [0] → n ≠ b) := by
  cases path with
  | nil => cases e
  | cons s q =>
    simp only [navigate] at e
    split at e
    · cases e
    · next r hr =>
      have hrF : ¬ F r ∧ (s ≠ 0 → r ≠ b) := by
        by_cases h0 : s = 0
        · subst h0; rw [hs.zero] at hr; cases hr; exact ⟨h.bout, fun hne => absurd rfl hne⟩
        · exact ⟨(hs.rest s r h0 hr).1, fun _ => (hs.rest s r h0 hr).2⟩
      obtain ⟨h1, h2⟩ := h.navLoop_inside hrF.1 e
      refine ⟨h1, fun hne => ?_⟩
      cases q with
      | nil => cases e; exact hrF.2 (by rintro rfl; exact hne rfl)
      | cons i is => exact h2 (by simp)

theorem slotParent_inside (h : Sealed A0 b F A) {slots : Slots} (hs : SlotsOk b F slots) {p pos : Nat}
    {path : Path} (e : slotParent A slots path = .ok (p, pos)) : ¬ F p := by
  unfold slotParent at e
  split at e
  · cases e
  · split at e
    · cases e
    · obtain ⟨p', e1, e2⟩ := res_bind e
      cases e2
      exact (h.navigate_inside hs e1).1

theorem insertAt (h : Sealed A0 b F A) {slots slots' : Slots} (hs : SlotsOk b F slots) {at_ : Path}
    {n : Nat} (hn : Inside b F n) {slot : Option Nat} (h0 : slot ≠ some 0)
    (e : insertAt A slots at_ n slot = .ok (A', slots')) :
    Sealed A0 b F A' ∧ SlotsOk b F slots' := by
  unfold Hotmeal.insertAt at e
  obtain ⟨⟨p, pos⟩, e1, e2⟩ := res_bind e
  have hp := h.slotParent_inside hs e1
  simp only at e2
  obtain ⟨A1, e3, e4⟩ := res_bind e2
  cases e4
  have hd : Sealed A0 b F (displace A slots p pos slot).1 ∧ SlotsOk b F (displace A slots p pos slot).2 := by
    unfold displace
    cases slot with
    | none => exact ⟨h, hs⟩
    | some s =>
      simp only
      split
      · exact ⟨h, hs⟩
      · next d hd =>
        have hdi := h.down p d hp (List.mem_of_getElem? hd)
        have hs0 : s ≠ 0 := by rintro rfl; exact h0 rfl
        refine ⟨h.detach hdi, ?_, ?_⟩
        · simp only [Arena.upd_apply, if_neg (Ne.symm hs0)]; exact hs.zero
        · intro t r ht hr
          simp only [Arena.upd_apply] at hr
          split at hr
          · cases hr; exact hdi
          · exact hs.rest t r ht hr
  exact ⟨hd.1.insertAtPosition hp hn e3, hd.2⟩

theorem createInsertContent (c : InsertContent) : ∀ {A A' : Arena NodeData} {n : Nat},
    Sealed A0 b F A → createInsertContent A c = .ok (A', n) → Sealed A0 b F A' ∧ Inside b F n := by
  refine InsertContent.rec
    (motive_1 := fun c => ∀ {A A' : Arena NodeData} {n : Nat}, Sealed A0 b F A →
      Hotmeal.createInsertContent A c = .ok (A', n) → Sealed A0 b F A' ∧ Inside b F n)
    (motive_2 := fun cs => ∀ {A A' : Arena NodeData} {n : Nat}, Sealed A0 b F A → ¬ F n →
      appendInsertContents A n cs = .ok A' → Sealed A0 b F A') ?_ ?_ ?_ ?_ ?_ c
  · intro tag attrs cs ih A A' n h e
    unfold Hotmeal.createInsertContent at e
    obtain ⟨h1, h2⟩ := h.newNode ⟨.element tag attrs, .html⟩
    obtain ⟨A1, e1, e2⟩ := res_bind e
    cases e2
    exact ⟨ih h1 h2.1 e1, h2⟩
  · intro s A A' n h e
    cases e; exact h.newNode _
  · intro s A A' n h e
    cases e; exact h.newNode _
  · intro A A' n h _ e
    cases e; exact h
  · intro c cs ih1 ih2 A A' n h hn e
    unfold appendInsertContents at e
    obtain ⟨⟨A1, m⟩, e1, e2⟩ := res_bind e
    obtain ⟨A2, e3, e4⟩ := res_bind e2
    obtain ⟨h1, h2⟩ := ih1 h e1
    exact ih2 (h1.append hn h2 e3) hn e4

theorem appendInsertContents (h : Sealed A0 b F A) {n : Nat} (hn : ¬ F n) {cs : List InsertContent}
    (e : appendInsertContents A n cs = .ok A') : Sealed A0 b F A' := by
  induction cs generalizing A with
  | nil => cases e; exact h
  | cons c cs ih =>
    unfold Hotmeal.appendInsertContents at e
    obtain ⟨⟨A1, m⟩, e1, e2⟩ := res_bind e
    obtain ⟨A2, e3, e4⟩ := res_bind e2
    obtain ⟨h1, h2⟩ := createInsertContent c h e1
    exact ih (h1.append hn h2 e3) e4

theorem cloneSubtree (src : Arena NodeData) (n : Nat) : ∀ {A A' : Arena NodeData} {m : Nat},
    Sealed A0 b F A → cloneSubtree src n A = .ok (A', m) → Sealed A0 b F A' ∧ Inside b F m := by
  have key : ∀ k n, ∀ {A A' : Arena NodeData} {m : Nat}, Sealed A0 b F A →
      src.foldF (β := Arena NodeData → Res (Arena NodeData × Nat)) (fun n rs A =>
        let (A, m) := A.newNode (src.data n)
        do
          let A ← rs.foldlM (fun A r => do
            let (A, c) ← r A
            A.append m c) A
          .ok (A, m)) k n A = .ok (A', m) → Sealed A0 b F A' ∧ Inside b F m := by
    intro k
    induction k with
    | zero =>
      intro n A A' m h e
      simp only [Arena.foldF, List.foldlM_nil] at e
      cases e
      exact h.newNode _
    | succ k ih =>
      intro n A A' m h e
      rw [Arena.foldF] at e
      simp only at e
      obtain ⟨A1, e1, e2⟩ := res_bind e
      cases e2
      obtain ⟨h1, h2⟩ := h.newNode (src.data n)
      refine ⟨?_, h2⟩
      have loop : ∀ (l : List Nat) (B B' : Arena NodeData), Sealed A0 b F B →
          (l.map (src.foldF (β := Arena NodeData → Res (Arena NodeData × Nat)) (fun n rs A =>
            let (A, m) := A.newNode (src.data n)
            do
              let A ← rs.foldlM (fun A r => do
                let (A, c) ← r A
                A.append m c) A
              .ok (A, m)) k)).foldlM (fun B r => do
                let (B, c) ← r B
                B.append A.next c) B = .ok B' → Sealed A0 b F B' := by
        intro l
        induction l with
        | nil => intro B B' hB e; cases e; exact hB
        | cons c l ihl =>
          intro B B' hB e
          rw [List.map_cons, List.foldlM_cons] at e
          obtain ⟨B2, e3, e4⟩ := res_bind e
          obtain ⟨⟨B1, x⟩, e5, e6⟩ := res_bind e3
          obtain ⟨h3, h4⟩ := ih c hB e5
          exact ihl B2 B' (h3.append h2.1 h4 e6) e4
      exact loop _ _ _ h1 e1
  intro A A' m h e
  exact key _ n h e

theorem detachAll (h : Sealed A0 b F A) {l : List Nat} (hl : ∀ c ∈ l, Inside b F c) :
    Sealed A0 b F (detachAll A l) := by
  unfold Hotmeal.detachAll
  induction l generalizing A with
  | nil => exact h
  | cons c l ih =>
    rw [List.foldl_cons]
    exact ih (h.detach (hl c (by simp))) fun x hx => hl x (by simp [hx])

end Sealed

/-- The patch does not take the patched root away and does not overwrite slot 0. -/
def Patch.SparesRoot : Patch → Prop
  | .insertElement _ _ _ _ slot => slot ≠ some 0
  | .insertText _ _ slot => slot ≠ some 0
  | .insertComment _ _ slot => slot ≠ some 0
  | .remove path => path ≠ [0]
  | .move from_ _ slot => from_ ≠ [0] ∧ slot ≠ some 0
  | _ => True

namespace Sealed

variable {A0 A A' : Arena NodeData} {b : Nat} {F : Nat → Prop}

theorem applyPatch (h : Sealed A0 b F A) (parse : Str → Document) {slots slots' : Slots}
    (hs : SlotsOk b F slots) {P : Patch} (hP : P.SparesRoot)
    (e : applyPatch parse A slots P = .ok (A', slots')) : Sealed A0 b F A' ∧ SlotsOk b F slots' := by
  cases P with
  | insertElement at_ tag attrs cs slot =>
    obtain ⟨h1, h2⟩ := h.newNode ⟨.element tag attrs, .html⟩
    unfold Hotmeal.applyPatch at e
    obtain ⟨A1, e1, e2⟩ := res_bind e
    exact (h1.appendInsertContents h2.1 e1).insertAt hs h2 hP e2
  | insertText at_ s slot =>
    obtain ⟨h1, h2⟩ := h.newNode ⟨.text s, .html⟩
    exact h1.insertAt hs h2 hP e
  | insertComment at_ s slot =>
    obtain ⟨h1, h2⟩ := h.newNode ⟨.comment s, .html⟩
    exact h1.insertAt hs h2 hP e
  | remove path =>
    unfold Hotmeal.applyPatch at e
    obtain ⟨n, e1, e2⟩ := res_bind e
    obtain ⟨A1, e3, e4⟩ := res_bind e2
    cases e4
    obtain ⟨h1, h2⟩ := h.navigate_inside hs e1
    exact ⟨h.replaceByEmpty ⟨h1, h2 hP⟩ e3, hs⟩
  | move from_ to slot =>
    unfold Hotmeal.applyPatch at e
    obtain ⟨n, e1, e2⟩ := res_bind e
    obtain ⟨h1, h2⟩ := h.navigate_inside hs e1
    have hn : Inside b F n := ⟨h1, h2 hP.1⟩
    simp only at e2
    split at e2
    · obtain ⟨A1, e3, e4⟩ := res_bind e2
      exact (h.replaceByEmpty hn e3).insertAt hs hn hP.2 e4
    · exact (h.detach hn).insertAt hs hn hP.2 e2
  | setText path s =>
    unfold Hotmeal.applyPatch at e
    obtain ⟨n, e1, e2⟩ := res_bind e
    obtain ⟨h1, _⟩ := h.navigate_inside hs e1
    split at e2
    · next hk => cases e2; exact ⟨h.setData h1 _ (by rw [hk]; rfl), hs⟩
    · next hk => cases e2; exact ⟨h.setData h1 _ (by rw [hk]; rfl), hs⟩
    · cases e2
  | setAttribute path name v =>
    unfold Hotmeal.applyPatch at e
    obtain ⟨n, e1, e2⟩ := res_bind e
    obtain ⟨h1, _⟩ := h.navigate_inside hs e1
    split at e2
    · next hk => cases e2; exact ⟨h.setData h1 _ (by rw [hk]; rfl), hs⟩
    · cases e2
  | removeAttribute path name =>
    unfold Hotmeal.applyPatch at e
    obtain ⟨n, e1, e2⟩ := res_bind e
    obtain ⟨h1, _⟩ := h.navigate_inside hs e1
    split at e2
    · next hk => cases e2; exact ⟨h.setData h1 _ (by rw [hk]; rfl), hs⟩
    · cases e2
  | updateProps path changes =>
    unfold Hotmeal.applyPatch at e
    obtain ⟨n, e1, e2⟩ := res_bind e
    obtain ⟨h1, _⟩ := h.navigate_inside hs e1
    split at e2
    · next hk => cases e2; exact ⟨h.setData h1 _ (by rw [hk]; rfl), hs⟩
    · next hk => cases e2; exact ⟨h.setData h1 _ (by rw [hk]; rfl), hs⟩
    · next hk => cases e2; exact ⟨h.setData h1 _ (by rw [hk]; rfl), hs⟩
    · cases e2; exact ⟨h, hs⟩
  | opaqueChanged path s =>
    unfold Hotmeal.applyPatch at e
    obtain ⟨n, e1, e2⟩ := res_bind e
    obtain ⟨h1, _⟩ := h.navigate_inside hs e1
    simp only at e2
    obtain ⟨A1, e3, e4⟩ := res_bind e2
    cases e4
    refine ⟨?_, hs⟩
    have hd := h.detachAll (l := A.children n) fun c hc => h.down n c h1 hc
    have loop : ∀ (W : Arena NodeData) (l : List Nat) (B B' : Arena NodeData), Sealed A0 b F B →
        l.foldlM (fun A c => do
          let (A, m) ← Hotmeal.cloneSubtree W c A
          A.append n m) B = .ok B' → Sealed A0 b F B' := by
      intro W l
      induction l with
      | nil => intro B B' hB e; cases e; exact hB
      | cons c l ihl =>
        intro B B' hB e
        rw [List.foldlM_cons] at e
        obtain ⟨B2, e3, e4⟩ := res_bind e
        obtain ⟨⟨B1, x⟩, e5, e6⟩ := res_bind e3
        obtain ⟨h3, h4⟩ := cloneSubtree W c hB e5
        exact ihl B2 B' (h3.append h1 h4 e6) e4
    exact loop _ _ _ _ hd e3

theorem errorArena (h : Sealed A0 b F A) {slots : Slots} (hs : SlotsOk b F slots) {P : Patch}
    (hP : P.SparesRoot) : Sealed A0 b F (errorArena A slots P) := by
  cases P with
  | insertElement at_ tag attrs cs slot =>
    obtain ⟨h1, h2⟩ := h.newNode ⟨.element tag attrs, .html⟩
    simp only [Hotmeal.errorArena]
    cases e : Hotmeal.appendInsertContents (A.newNode ⟨.element tag attrs, .html⟩).1
        (A.newNode ⟨.element tag attrs, .html⟩).2 cs with
    | ok A1 => exact h1.appendInsertContents h2.1 e
    | error _ => exact h1
  | insertText at_ s slot => exact (h.newNode _).1
  | insertComment at_ s slot => exact (h.newNode _).1
  | move from_ to slot =>
    simp only [Hotmeal.errorArena]
    cases e1 : navigate A slots from_ with
    | error _ => exact h
    | ok n =>
      obtain ⟨h1, h2⟩ := h.navigate_inside hs e1
      have hn : Inside b F n := ⟨h1, h2 hP.1⟩
      simp only
      cases e3 : (if 1 < from_.length then Hotmeal.replaceByEmpty A n else .ok (A.detach n) : Res _) with
      | error _ => exact h
      | ok A1 =>
        simp only
        split at e3
        · exact h.replaceByEmpty hn e3
        · cases e3; exact h.detach hn
  | remove path => exact h
  | setText path s => exact h
  | setAttribute path name v => exact h
  | removeAttribute path name => exact h
  | updateProps path changes => exact h
  | opaqueChanged path s => exact h

theorem applyKeep (h : Sealed A0 b F A) (parse : Str → Document) {slots : Slots}
    (hs : SlotsOk b F slots) {ps : List Patch} (hP : ∀ P ∈ ps, P.SparesRoot) :
    Sealed A0 b F (applyKeep parse A slots ps).1 := by
  induction ps generalizing A slots with
  | nil => exact h
  | cons P ps ih =>
    simp only [Hotmeal.applyKeep]
    cases e : Hotmeal.applyPatch parse A slots P with
    | error x => exact h.errorArena hs (hP P (by simp))
    | ok r =>
      obtain ⟨A1, s1⟩ := r
      obtain ⟨h1, h2⟩ := h.applyPatch parse hs (hP P (by simp)) e
      exact ih h1 h2 fun P hP' => hP P (by simp [hP'])

end Sealed
end Hotmeal
