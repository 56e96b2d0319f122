import Verif.Lemmas.LinksBrowser

set_option autoImplicit false
set_option linter.unusedSectionVars false

/-!
# How many children an element of the page gets
-/

namespace Hotmeal

/-- No node has more than `K` children. -/
def Arena.Fan {α : Type} (K : Nat) (A : Arena α) : Prop := ∀ n, (A.children n).length ≤ K

mutual
/-- No element of the content has more than `K` children. Where the DOM rejects a name, the browser parses the
content from HTML text, and the condition is about what it parses. -/
def WebDom.Fits (dom : WebDom) (K : Nat) : InsertContent → Prop
  | .element tag attrs cs => cs.length ≤ K ∧ dom.FitsL K cs ∧ (∀ e, dom.createWithAttrs tag attrs = .error e →
      (dom.fragment (WebDom.writeContent (.element tag attrs cs))).arena.Fan K)
  | .text _ => True
  | .comment _ => True
def WebDom.FitsL (dom : WebDom) (K : Nat) : List InsertContent → Prop
  | [] => True
  | c :: cs => dom.Fits K c ∧ dom.FitsL K cs
end

/-- The patch puts nodes at places below `K` only, and its content has no element with more than `K`
children. -/
def WebDom.PatchFits (dom : WebDom) (K : Nat) : Patch → Prop
  | .insertElement at_ tag attrs cs _ => (∀ pos, at_.getLast? = some pos → pos < K) ∧
      dom.Fits K (.element tag attrs cs)
  | .insertText at_ _ _ => ∀ pos, at_.getLast? = some pos → pos < K
  | .insertComment at_ _ _ => ∀ pos, at_.getLast? = some pos → pos < K
  | .move _ to_ _ => ∀ pos, to_.getLast? = some pos → pos < K
  | _ => True

namespace Fan

variable {A A' : Arena NodeData} {K : Nat}

/-- No node of `A` has got more children. -/
def Less (A A' : Arena NodeData) : Prop :=
  A.next ≤ A'.next ∧ ∀ i, i < A.next → (A'.children i).length ≤ (A.children i).length

theorem Less.refl : Less A A := ⟨Nat.le_refl _, fun _ _ => Nat.le_refl _⟩

theorem newNode (h : A.Fan K) (d : NodeData) : (A.newNode d).1.Fan K := by
  intro n
  simp only [Arena.newNode, Arena.upd_apply]
  split
  · simp
  · exact h n

theorem newNode_less (A : Arena NodeData) (d : NodeData) : Less A (A.newNode d).1 := by
  refine ⟨by simp [Arena.newNode], fun i hi => ?_⟩
  simp only [Arena.newNode, Arena.upd_apply]
  rw [if_neg (by omega)]
  exact Nat.le_refl _

theorem detach_len (A : Arena NodeData) (n i : Nat) :
    ((A.detach n).children i).length ≤ (A.children i).length := by
  unfold Arena.detach
  split
  · exact Nat.le_refl _
  · simp only [Arena.upd_apply]
    split
    · next h => rw [h]; exact List.length_erase_le
    · exact Nat.le_refl _

theorem appendRaw_len (A : Arena NodeData) (p c i : Nat) :
    ((A.appendRaw p c).children i).length ≤ (A.children i).length + if i = p then 1 else 0 := by
  unfold Arena.appendRaw
  simp only [Arena.upd_apply]
  split
  · next h => rw [h, List.length_append]; have := detach_len A c p; simp; omega
  · have := detach_len A c i; omega

theorem detachAll_len : ∀ (l : List Nat) (A : Arena NodeData) (i : Nat),
    ((detachAll A l).children i).length ≤ (A.children i).length
  | [], _, _ => Nat.le_refl _
  | n :: l, A, i => Nat.le_trans (detachAll_len l (A.detach n) i) (detach_len A n i)

/-- Detaching the children of a node one after the other leaves it without children. -/
theorem detachAll_nil {n : Nat} : ∀ (l : List Nat) {A : Arena NodeData}, A.WF → A.children n = l →
    (detachAll A l).children n = []
  | [], _, _, e => e
  | c :: l, A, h, e => by
    have hc : A.parent c = some n := (h.mem_iff _ _).1 (by rw [e]; simp)
    refine detachAll_nil l (h.detach c) ?_
    simp [Arena.detach, hc, Arena.upd_apply, e]

theorem addChild_len (A : Arena NodeData) (p : Nat) (d : NodeData) (i : Nat) :
    ((A.addChild p d).1.children i).length ≤ (A.children i).length + if i = p then 1 else 0 := by
  unfold Arena.addChild
  simp only
  refine Nat.le_trans (appendRaw_len _ _ _ _) ?_
  simp only [Arena.newNode, Arena.upd_apply]
  split
  · simp
  · exact Nat.le_refl _

theorem fillGaps_len {p : Nat} : ∀ (k : Nat) (A : Arena NodeData) (i : Nat),
    ((fillGaps A p k).children i).length ≤ (A.children i).length + if i = p then k else 0
  | 0, _, _ => by simp [fillGaps]
  | k + 1, A, i => by
    unfold fillGaps
    have h1 := fillGaps_len (p := p) k (A.addChild p Document.emptyText).1 i
    have h2 := addChild_len A p Document.emptyText i
    split at h1 <;> simp_all <;> omega

theorem insBefore_len (s x : Nat) : ∀ l : List Nat, (Arena.insBefore s x l).length ≤ l.length + 1
  | [] => by simp [Arena.insBefore]
  | y :: ys => by
    unfold Arena.insBefore
    have := insBefore_len s x ys
    split <;> simp; omega

theorem mem_insBefore (s x : Nat) : ∀ l : List Nat, s ∈ l → s ∈ Arena.insBefore s x l
  | [], h => by cases h
  | y :: ys, h => by
    unfold Arena.insBefore
    split
    · next e => simp [e]
    · next e =>
      rcases List.mem_cons.1 h with h | h
      · exact absurd h.symm e
      · exact List.mem_cons_of_mem _ (mem_insBefore s x ys h)

theorem replaceChild_len (h : A.WF) {p new occ : Nat} (hp : A.parent occ = some p)
    (e : Wasm.replaceChild A p new occ = .ok A') (i : Nat) :
    (A'.children i).length ≤ (A.children i).length := by
  unfold Wasm.replaceChild at e
  split at e
  · cases e
  · split at e
    · cases e; exact Nat.le_refl _
    · next hne =>
      obtain ⟨A2, h1, e⟩ := res_bind e
      cases e
      have hwd := h.detach new
      have hp' : (A.detach new).parent occ = some p := by
        rw [Arena.detach_parent, if_neg (fun e => hne e.symm)]; exact hp
      unfold Arena.insertBefore at h1
      rw [if_neg (fun e => hne e.symm)] at h1
      have hd := detach_len A new
      generalize A.detach new = X at *
      simp only [hp'] at h1
      split at h1
      · cases h1
      · cases h1
        have hm : occ ∈ X.children p := (hwd.mem_iff _ _).2 hp'
        have hpar : Arena.upd X.parent new (some p) occ = some p := by
          rw [Arena.upd_apply, if_neg (fun e => hne e.symm)]; exact hp'
        unfold Arena.detach
        simp only [hpar, Arena.upd_apply]
        split
        · next hi =>
          subst hi
          rw [if_pos trivial, List.length_erase_of_mem (mem_insBefore _ _ _ hm)]
          have := insBefore_len occ new (X.children i)
          have := hd i
          omega
        · exact hd i

theorem replaceByEmpty_len (h : A.WF) {n : Nat} (hn : n < A.next)
    (e : Wasm.replaceByEmpty A n = .ok A') (i : Nat) : (A'.children i).length ≤ (A.children i).length := by
  unfold Wasm.replaceByEmpty at e
  split at e
  · cases e; exact Nat.le_refl _
  · next p hp =>
    have hp' : (A.newNode Document.emptyText).1.parent n = some p := by
      rw [h.newNode_parent]; exact hp
    refine Nat.le_trans (replaceChild_len (h.newNode _) hp' e i) ?_
    simp only [Arena.newNode, Arena.upd_apply]
    split
    · simp
    · exact Nat.le_refl _

/-- **The placement**: a node at `pos` below an element gives it at most `pos + 1` children, unless it had
more. -/
theorem insertAtPosition_len (h : A.WF) {s s' : Slots} {p n pos : Nat} {slot : Option Nat}
    (e : Wasm.insertAtPosition A s p n pos slot = .ok (A', s')) (i : Nat) :
    (A'.children i).length ≤ max (A.children i).length (if i = p then pos + 1 else 0) := by
  unfold Wasm.insertAtPosition at e
  split at e
  · next occ hocc =>
    obtain ⟨A2, h1, e⟩ := res_bind e
    cases e
    exact Nat.le_trans (replaceChild_len h ((h.mem_iff _ _).1 (List.mem_of_getElem? hocc)) h1 i)
      (Nat.le_max_left _ _)
  · next hnone =>
    obtain ⟨A2, h1, e⟩ := res_bind e
    cases e
    unfold Wasm.appendChild at h1
    split at h1
    · cases h1
    · cases h1
      have h2 := appendRaw_len (fillGaps A p (pos - (A.children p).length)) p n i
      have h3 := fillGaps_len (p := p) (pos - (A.children p).length) A i
      have h4 : (A.children p).length ≤ pos := List.getElem?_eq_none_iff.1 hnone
      by_cases hi : i = p
      · subst hi; simp only [if_true] at *; omega
      · rw [if_neg hi] at *; omega

theorem setTextContent_len (h : A.WF) {n : Nat} (t : Str) (i : Nat) :
    ((Wasm.setTextContent A n t).children i).length ≤ max (A.children i).length 1 := by
  unfold Wasm.setTextContent
  split
  · exact Nat.le_max_left _ _
  · exact Nat.le_max_left _ _
  · simp only
    have h1 := detachAll_len (A.children n) A i
    split
    · omega
    · have h2 := addChild_len (detachAll A (A.children n)) n ⟨.text t, .html⟩ i
      by_cases hi : i = n
      · subst hi
        rw [detachAll_nil _ h rfl] at h2
        simp at h2; omega
      · rw [if_neg hi] at h2; omega
  · exact Nat.le_max_left _ _

/-- What a copying function does. -/
def Copies (K : Nat) (r : Arena NodeData → Res (Arena NodeData × Nat)) : Prop :=
  ∀ A, A.Fan K → ∀ A' n, r A = .ok (A', n) → A'.Fan K ∧ Less A A'

theorem append_len {p c : Nat} (e : A.append p c = .ok A') (i : Nat) : A'.next = A.next ∧
    (A'.children i).length ≤ (A.children i).length + if i = p then 1 else 0 := by
  unfold Arena.append at e
  split at e
  · cases e
  · cases e; exact ⟨Safe.appendRaw_next _ _ _, appendRaw_len _ _ _ _⟩

theorem copyAll {m : Nat} : ∀ (rs : List (Arena NodeData → Res (Arena NodeData × Nat))),
    (∀ r ∈ rs, Copies K r) → ∀ A, A.Fan K → m < A.next → (A.children m).length + rs.length ≤ K → ∀ A',
    rs.foldlM (fun A r => do
      let (A, c) ← r A
      A.append m c) A = Except.ok (ε := Err) A' →
    A'.Fan K ∧ A.next ≤ A'.next ∧ ∀ i, i < A.next → i ≠ m → (A'.children i).length ≤ (A.children i).length
  | [], _, A, h, _, _, A', e => by cases e; exact ⟨h, Nat.le_refl _, fun _ _ _ => Nat.le_refl _⟩
  | r :: rs, hr, A, h, hm, hK, A', e => by
    rw [List.foldlM_cons] at e
    obtain ⟨A2, h1, e⟩ := res_bind e
    obtain ⟨⟨A3, c⟩, h2, h1⟩ := res_bind h1
    obtain ⟨h3, h4, h5⟩ := hr r (by simp) A h A3 c h2
    have h6 := append_len h1
    have hnext := (h6 0).1
    rw [List.length_cons] at hK
    have hlm : (A2.children m).length + rs.length ≤ K := by
      have h7 := (h6 m).2
      have h8 := h5 m hm
      rw [if_pos rfl] at h7
      omega
    obtain ⟨g1, g2, g3⟩ := copyAll rs (fun r h => hr r (by simp [h])) A2 (fun i => by
      by_cases hi : i = m
      · subst hi; omega
      · have := (h6 i).2
        have h9 := h3 i
        rw [if_neg hi] at this
        omega) (by omega) hlm A' e
    refine ⟨g1, by omega, fun i hi hne => ?_⟩
    have := g3 i (by omega) hne
    have h7 := (h6 i).2
    have h8 := h5 i hi
    rw [if_neg hne] at h7
    omega

theorem cloneSubtree {src : Arena NodeData} (hsrc : src.Fan K) (n : Nat) :
    Copies K (Hotmeal.cloneSubtree src n) := by
  unfold Hotmeal.cloneSubtree Arena.fold
  generalize src.next = k
  have step : ∀ (n : Nat) (rs : List (Arena NodeData → Res (Arena NodeData × Nat))), rs.length ≤ K →
      (∀ r ∈ rs, Copies K r) → Copies K (fun A =>
        let (A, m) := A.newNode (src.data n)
        do
          let A ← rs.foldlM (fun A r => do
            let (A, c) ← r A
            A.append m c) A
          .ok (A, m)) := by
    intro n rs hK hrs A h A' m e
    obtain ⟨A2, h3, e⟩ := res_bind e
    cases e
    obtain ⟨h4, h5, h6⟩ := copyAll rs hrs _ (newNode h (src.data n)) (by simp [Arena.newNode])
      (by simp [Arena.newNode, Arena.upd_apply]; exact hK) A' h3
    have : A.next + 1 ≤ A'.next := h5
    refine ⟨h4, by omega, fun i hi => ?_⟩
    exact Nat.le_trans (h6 i (by simp [Arena.newNode]; omega) (by simp [Arena.newNode]; omega))
      ((newNode_less A (src.data n)).2 i hi)
  induction k generalizing n with
  | zero => exact step n [] (by simp) (by simp)
  | succ k ih =>
    refine step n _ (by rw [List.length_map]; exact hsrc n) fun r hr => ?_
    obtain ⟨c, _, rfl⟩ := List.mem_map.1 hr
    exact ih c

mutual
theorem createInsertContent (dom : WebDom) : ∀ (c : InsertContent) {A : Arena NodeData},
    A.Fan K → dom.Fits K c → ∀ {A' : Arena NodeData} {n : Nat}, dom.createInsertContent A c = .ok (A', n) →
    A'.Fan K ∧ Less A A'
  | .element tag attrs cs, A, h, hf, A', n, e => by
    unfold WebDom.createInsertContent at e
    unfold WebDom.Fits at hf
    split at e
    · next k _ =>
      obtain ⟨A2, h3, e⟩ := res_bind e
      cases e
      obtain ⟨h4, h5, h6⟩ := appendContents dom cs (newNode h ⟨k, .html⟩) hf.2.1 (by simp [Arena.newNode])
        (by simp [Arena.newNode, Arena.upd_apply]; exact hf.1) h3
      have : A.next + 1 ≤ A'.next := h5
      refine ⟨h4, by omega, fun i hi => ?_⟩
      exact Nat.le_trans (h6 i (by simp [Arena.newNode]; omega) (by simp [Arena.newNode]; omega))
        ((newNode_less A _).2 i hi)
    · next er he =>
      unfold WebDom.viaHtml at e
      simp only at e
      split at e
      · cases e
      · exact cloneSubtree (hf.2.2 er he) _ A h A' n e
  | .text t, A, h, _, A', n, e => by
    unfold WebDom.createInsertContent at e
    cases e
    exact ⟨newNode h _, newNode_less _ _⟩
  | .comment t, A, h, _, A', n, e => by
    unfold WebDom.createInsertContent at e
    cases e
    exact ⟨newNode h _, newNode_less _ _⟩
theorem appendContents (dom : WebDom) : ∀ (cs : List InsertContent) {A : Arena NodeData},
    A.Fan K → dom.FitsL K cs → ∀ {p : Nat}, p < A.next → (A.children p).length + cs.length ≤ K →
    ∀ {A' : Arena NodeData}, dom.appendContents A p cs = .ok A' →
    A'.Fan K ∧ A.next ≤ A'.next ∧ ∀ i, i < A.next → i ≠ p → (A'.children i).length ≤ (A.children i).length
  | [], A, h, _, p, _, _, A', e => by
    unfold WebDom.appendContents at e
    cases e; exact ⟨h, Nat.le_refl _, fun _ _ _ => Nat.le_refl _⟩
  | c :: cs, A, h, hf, p, hp, hK, A', e => by
    unfold WebDom.appendContents at e
    unfold WebDom.FitsL at hf
    obtain ⟨⟨A2, m⟩, h1, e⟩ := res_bind e
    obtain ⟨A3, h2, e⟩ := res_bind e
    obtain ⟨h3, h4, h5⟩ := createInsertContent dom c h hf.1 h1
    have h6 : ∀ i, A3.next = A2.next ∧
        (A3.children i).length ≤ (A2.children i).length + if i = p then 1 else 0 := by
      intro i
      unfold Wasm.appendChild at h2
      split at h2
      · cases h2
      · cases h2; exact ⟨Safe.appendRaw_next _ _ _, appendRaw_len _ _ _ _⟩
    have hnext := (h6 0).1
    rw [List.length_cons] at hK
    have hlm : (A3.children p).length + cs.length ≤ K := by
      have h7 := (h6 p).2
      have h8 := h5 p hp
      rw [if_pos rfl] at h7
      omega
    obtain ⟨g1, g2, g3⟩ := appendContents dom cs (A := A3) (fun i => by
      by_cases hi : i = p
      · subst hi; omega
      · have := (h6 i).2
        have h9 := h3 i
        rw [if_neg hi] at this
        omega) hf.2 (p := p) (by omega) hlm e
    refine ⟨g1, by omega, fun i hi hne => ?_⟩
    have := g3 i (by omega) hne
    have h7 := (h6 i).2
    have h8 := h5 i hi
    rw [if_neg hne] at h7
    omega
end

variable {D0 : Arena NodeData} {b : Nat}

theorem insertParent_pos {s : Slots} {q : Path} {p pos : Nat}
    (e : Wasm.insertParent b A s q = .ok (p, pos)) : q.getLast? = some pos := by
  unfold Wasm.insertParent at e
  split at e
  · cases e
  · split at e
    · cases e
    · next hl =>
      obtain ⟨p1, h1, e⟩ := res_bind e
      obtain ⟨p2, h2, e⟩ := res_bind e
      cases e
      exact hl

theorem insertAtPosition (h : A.WF) (hK : A.Fan K) {s s' : Slots} {p n pos : Nat} {slot : Option Nat}
    (hpos : pos < K) (e : Wasm.insertAtPosition A s p n pos slot = .ok (A', s')) : A'.Fan K := by
  intro i
  have h1 := insertAtPosition_len h e i
  have h2 := hK i
  split at h1 <;> omega

/-- **The step**: any patch. -/
theorem applyPatch (dom : WebDom) (hD : D0.WF) (h : Safe D0 b A) (hb : Within D0 b A b) {s : Slots}
    (hs : SlotsWithin D0 b A s) (h1K : 1 ≤ K) (hK : A.Fan K) {P : Patch} (hP : dom.PatchFits K P)
    {A' : Arena NodeData} {s' : Slots} (e : dom.applyPatch b A s P = .ok (A', s')) : A'.Fan K := by
  have set1 : ∀ n t, (Wasm.setTextContent A n t).Fan K := by
    intro n t i
    have h1 := setTextContent_len (n := n) h.wf t i
    have h2 := hK i
    omega
  cases P with
  | insertElement q tag attrs cs slot =>
    obtain ⟨⟨p, pos⟩, h1, e⟩ := res_bind e
    obtain ⟨⟨A2, n⟩, h2, e⟩ := res_bind e
    have h3 := Safe.createInsertContent dom hD _ h h2
    exact insertAtPosition h3.1.wf (createInsertContent dom _ hK hP.2 h2).1 (hP.1 pos (insertParent_pos h1)) e
  | insertText q t slot =>
    obtain ⟨⟨p, pos⟩, h1, e⟩ := res_bind e
    exact insertAtPosition (h.wf.newNode _) (newNode hK _) (hP pos (insertParent_pos h1)) e
  | insertComment q t slot =>
    obtain ⟨⟨p, pos⟩, h1, e⟩ := res_bind e
    exact insertAtPosition (h.wf.newNode _) (newNode hK _) (hP pos (insertParent_pos h1)) e
  | remove q =>
    unfold WebDom.applyPatch Wasm.applyPatch at e
    simp only at e
    split at e
    · cases e
    · split at e
      · obtain ⟨A2, h2, e⟩ := res_bind e
        cases e
        exact fun i => Nat.le_trans (replaceByEmpty_len h.wf hb.1 h2 i) (hK i)
      · cases e; exact hK
    · obtain ⟨n, h1, e⟩ := res_bind e
      obtain ⟨A2, h2, e⟩ := res_bind e
      cases e
      exact fun i => Nat.le_trans (replaceByEmpty_len h.wf (h.findNode hb hs h1).1 h2 i) (hK i)
  | setText q t =>
    obtain ⟨n, h1, e⟩ := res_bind e
    cases e
    exact set1 n t
  | setAttribute q k v =>
    obtain ⟨n, h1, e⟩ := res_bind e
    split at e
    · obtain ⟨a, _, e⟩ := res_bind e
      cases e; exact hK
    · cases e
  | removeAttribute q k =>
    obtain ⟨n, h1, e⟩ := res_bind e
    split at e
    · cases e; exact hK
    · cases e
  | move q to slot =>
    have h2 : ∃ A2 s2 n, A2.WF ∧ A2.Fan K ∧
        (do let (p, pos) ← Wasm.insertParent b A2 s2 to
            Wasm.insertAtPosition A2 s2 p n pos slot : Res _) = .ok (A', s') := by
      unfold WebDom.applyPatch Wasm.applyPatch at e
      simp only at e
      split at e
      · split at e
        · cases e
        · next n hn => exact ⟨A, _, n, h.wf, hK, e⟩
      · obtain ⟨n, h1, e⟩ := res_bind e
        obtain ⟨A2, h2, e⟩ := res_bind e
        have hn := h.findNode hb hs h1
        exact ⟨A2, s, n, (h.replaceByEmpty hD hn h2).1.wf,
          fun i => Nat.le_trans (replaceByEmpty_len h.wf hn.1 h2 i) (hK i), e⟩
    obtain ⟨A2, s2, n, g1, g2, e⟩ := h2
    obtain ⟨⟨p, pos⟩, h1, e⟩ := res_bind e
    exact insertAtPosition g1 g2 (hP pos (insertParent_pos h1)) e
  | updateProps q changes =>
    obtain ⟨n, h1, e⟩ := res_bind e
    have h2 : ∃ A2 : Arena NodeData, A2.Fan K ∧ (match A2.data n with
        | ⟨.element tag attrs, ns⟩ => do
          let attrs ← dom.updateAttrs ns attrs changes
          .ok (A2.setData n ⟨.element tag attrs, ns⟩, s)
        | _ => .ok (A2, s) : Res _) = .ok (A', s') := by
      refine ⟨_, ?_, e⟩
      split
      · exact set1 n _
      · exact hK
    obtain ⟨A2, g1, e⟩ := h2
    split at e
    · obtain ⟨a, _, e⟩ := res_bind e
      cases e; exact g1
    · cases e; exact g1
  | opaqueChanged q content =>
    obtain ⟨n, h1, e⟩ := res_bind e
    obtain ⟨_, _, e⟩ := res_bind e
    cases e
    exact hK

theorem applyLoop (dom : WebDom) (hD : D0.WF) (h1K : 1 ≤ K) : ∀ (ps : List Patch) {A : Arena NodeData},
    Safe D0 b A → Within D0 b A b → ∀ {s : Slots}, SlotsWithin D0 b A s → A.Fan K →
    (∀ P ∈ ps, dom.PatchFits K P) → ∀ {A' : Arena NodeData} {s' : Slots},
    dom.applyLoop b A s ps = .ok (A', s') → A'.Fan K
  | [], _, _, _, _, _, hK, _, _, _, e => by cases e; exact hK
  | P :: ps, A, h, hb, s, hs, hK, hP, A', s', e => by
    unfold WebDom.applyLoop at e
    obtain ⟨⟨A2, s2⟩, h1, e⟩ := res_bind e
    obtain ⟨g1, g2, g3⟩ := h.applyPatch dom hD hb hs h1
    exact applyLoop dom hD h1K ps g1 ⟨Nat.lt_of_lt_of_le hb.1 g2, hb.2⟩ g3
      (applyPatch dom hD h hb hs h1K hK (hP P (by simp)) h1) (fun Q hQ => hP Q (by simp [hQ])) e

end Fan
end Hotmeal
