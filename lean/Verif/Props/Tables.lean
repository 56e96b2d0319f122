import Verif.Lemmas.Tables
import Verif.Props.Termination
import Verif.Spec.OfForest
import Verif.Props.Frame
import Verif.Lemmas.RewriteBrowser
import Mathlib.Data.List.Induction

set_option autoImplicit false
set_option linter.unusedSectionVars false

/-!
# C69: tables, caches and the order of hash sets do not change the patches
-/

namespace Hotmeal

theorem Arena.foldF_of_children {α α' β : Type} {A : Arena α} {B : Arena α'} (h : A.children = B.children)
    (alg : Nat → List β → β) (k : Nat) : ∀ n, A.foldF alg k n = B.foldF alg k n := by
  induction k with
  | zero => intro n; rfl
  | succ k ih => intro n; rw [Arena.foldF, Arena.foldF, h]; congr 1; exact List.map_congr_left fun c _ => ih c

theorem diffable_fold {β : Type} (D : Document) (alg : Nat → List β → β) (n : Nat) :
    (diffable D).fold alg n = D.arena.fold alg n := by
  unfold Arena.fold
  exact Arena.foldF_of_children (by rfl) alg _ n

namespace Tables

variable {H : Type} {hashNode : HKind → Option Str → List H → H} {zero : H}

/-- A table filled bottom-up holds the value of the recursive function at every node of the list. -/
theorem fill_table {α β : Type} {A : Arena α} (hA : A.WF) (alg : Nat → List β → β) {l : List Nat}
    (hl : ∀ l1 n l2 c, l = l1 ++ n :: l2 → A.parent c = some n → c ∈ l1) (t : Nat → β) : ∀ n ∈ l,
    l.foldl (fun t n => Arena.upd t n (alg n ((A.children n).map t))) t n = A.fold alg n := by
  suffices ∀ l2 l1, l = l1 ++ l2 → ∀ n ∈ l1,
      l1.foldl (fun t n => Arena.upd t n (alg n ((A.children n).map t))) t n = A.fold alg n by
    exact this [] l (by simp)
  intro l2 l1
  induction l1 using List.reverseRec generalizing l2 with
  | nil => intro _ n hn; cases hn
  | append_singleton l1 m ih =>
    intro e n hn
    rw [List.append_assoc] at e
    have ih := ih _ e
    rw [List.foldl_append]
    simp only [List.foldl_cons, List.foldl_nil, Arena.upd]
    split
    · next em =>
      subst em
      rw [hA.fold_eq]
      congr 1
      refine List.map_congr_left fun c hc => ih c ?_
      exact hl l1 n l2 c e ((hA.mem_iff _ _).1 hc)
    · next em =>
      rcases List.mem_append.1 hn with h | h
      · exact ih n h
      · exact absurd (List.mem_singleton.1 h) em

theorem recomputeHashes_eq {T : Arena TData} (hT : T.WF) (h0 : 0 < T.next) {n : Nat} (hn : T.Anc 0 n) :
    recomputeHashes hashNode zero T n = (DiffTree.ofArena hashNode T 0).hash n := by
  obtain ⟨h1, _, _, h4, _⟩ := Arena.C40_post_order hT 0 h0
  exact fill_table hT (fun n hs => hashNode (T.data n).kind (T.data n).text hs) h4 _ n ((h1 n).2 hn)

/-- What the table holds for a node. -/
def infoOf (hashNode : HKind → Option Str → List H → H) (D : Document) (n : Nat) : NodeInfo H :=
  ⟨(DiffTree.ofArena hashNode (diffable D) 0).hash n, (tdataOf (D.arena.data n)).kind,
    (tdataOf (D.arena.data n)).props, (tdataOf (D.arena.data n)).text, D.arena.fold DiffTree.heightAlg n⟩

theorem firstPass_eq {D : Document} {body : Nat} (hD : D.arena.WF)
    (hd : ∀ n, D.arena.Anc body n → (D.arena.data n).kind ≠ .document) (n : Nat) :
    (D.arena.Anc body n → firstPass zero D.arena body n = some ⟨zero, (tdataOf (D.arena.data n)).kind,
      (tdataOf (D.arena.data n)).props, (tdataOf (D.arena.data n)).text, 0⟩) ∧
    (¬ D.arena.Anc body n → firstPass zero D.arena body n = none) := by
  simp only [← hD.mem_descendants] at hd ⊢
  unfold firstPass
  generalize D.arena.descendants body = l at hd ⊢
  suffices ∀ m : Map (NodeInfo H), (n ∈ l → (l.foldl (fun m n =>
    match (D.arena.data n).kind with
    | .element tag attrs => Arena.upd m n (some ⟨zero, .element tag (D.arena.data n).ns, attrs, none, 0⟩)
    | .text s => Arena.upd m n (some ⟨zero, .text, [], some s, 0⟩)
    | .comment s => Arena.upd m n (some ⟨zero, .comment, [], some s, 0⟩)
    | .document => m) m) n = some ⟨zero, (tdataOf (D.arena.data n)).kind,
      (tdataOf (D.arena.data n)).props, (tdataOf (D.arena.data n)).text, 0⟩) ∧ (¬ n ∈ l → (l.foldl (fun m n =>
    match (D.arena.data n).kind with
    | .element tag attrs => Arena.upd m n (some ⟨zero, .element tag (D.arena.data n).ns, attrs, none, 0⟩)
    | .text s => Arena.upd m n (some ⟨zero, .text, [], some s, 0⟩)
    | .comment s => Arena.upd m n (some ⟨zero, .comment, [], some s, 0⟩)
    | .document => m) m) n = m n) from this _
  induction l with
  | nil => intro m; exact ⟨(fun h => by cases h), fun _ => rfl⟩
  | cons k l ih =>
    intro m
    have hk := hd k List.mem_cons_self
    have step : (match (D.arena.data k).kind with
      | .element tag attrs => Arena.upd m k (some ⟨zero, .element tag (D.arena.data k).ns, attrs, none, 0⟩)
      | .text s => Arena.upd m k (some ⟨zero, .text, [], some s, 0⟩)
      | .comment s => Arena.upd m k (some ⟨zero, .comment, [], some s, 0⟩)
      | .document => m) = Arena.upd m k (some ⟨zero, (tdataOf (D.arena.data k)).kind,
        (tdataOf (D.arena.data k)).props, (tdataOf (D.arena.data k)).text, 0⟩) := by
      unfold tdataOf
      cases e : (D.arena.data k).kind with
      | document => exact absurd e hk
      | element => rfl
      | text => rfl
      | comment => rfl
    rw [List.foldl_cons, step]
    obtain ⟨h1, h2⟩ := ih (fun j hj => hd j (List.mem_cons_of_mem _ hj)) (Arena.upd m k (some ⟨zero,
      (tdataOf (D.arena.data k)).kind, (tdataOf (D.arena.data k)).props, (tdataOf (D.arena.data k)).text, 0⟩))
    refine ⟨fun hn => ?_, fun hn => ?_⟩
    · by_cases hnl : n ∈ l
      · exact h1 hnl
      · rcases List.mem_cons.1 hn with rfl | h
        · rw [h2 hnl]; simp [Arena.upd]
        · exact absurd h hnl
    · rw [h2 fun h => hn (List.mem_cons_of_mem _ h)]
      simp only [Arena.upd]
      have : n ≠ k := by rintro rfl; exact hn List.mem_cons_self
      rw [if_neg this]

/-- **C69**: the table made by `DiffableDocument::new` holds, for every node of the body and for no other node,
its kind, attributes and text, the hash of its subtree and its height. -/
theorem C69_table {D : Document} (hD : D.Sound) {body : Nat} (hb : D.body = some body) (n : Nat) :
    nodeTable hashNode zero D.arena body n =
      if n ∈ D.arena.descendants body then some (infoOf hashNode D n) else none := by
  have hw := hD.arena.wf
  obtain ⟨hm, _⟩ := Document.body_spec hb
  have hp := (hw.mem_iff _ _).1 hm
  obtain ⟨q1, _, _, q4, _⟩ := Arena.C40_post_order hw body (hw.lt_of_parent _ _ hp).1
  have hdoc : ∀ n, D.arena.Anc body n → (D.arena.data n).kind ≠ .document := by
    intro n hn
    rcases hn.cases' with e | ⟨p, hp', _⟩
    · rw [← e]; exact hD.arena.nodoc _ _ hp
    · exact hD.arena.nodoc _ _ hp'
  have hinit := firstPass_eq (zero := zero) hw hdoc
  unfold nodeTable
  suffices ∀ l2 l1, D.arena.postOrder body = l1 ++ l2 → ∀ n,
      (¬ D.arena.Anc body n → l1.foldl (secondStep hashNode D.arena) (firstPass zero D.arena body) n = none) ∧
      (D.arena.Anc body n → ∃ h k, l1.foldl (secondStep hashNode D.arena) (firstPass zero D.arena body) n =
        some { infoOf hashNode D n with hash := h, height := k } ∧
        (n ∈ l1 → h = (infoOf hashNode D n).hash ∧ k = (infoOf hashNode D n).height)) by
    obtain ⟨h1, h2⟩ := this [] (D.arena.postOrder body) (by simp) n
    by_cases hn : D.arena.Anc body n
    · rw [if_pos ((hw.mem_descendants _ _).2 hn)]
      obtain ⟨h, k, e, he⟩ := h2 hn
      obtain ⟨rfl, rfl⟩ := he ((q1 n).2 hn)
      rw [e]
    · rw [if_neg fun h => hn ((hw.mem_descendants _ _).1 h)]
      exact h1 hn
  intro l2 l1
  induction l1 using List.reverseRec generalizing l2 with
  | nil =>
    intro _ n
    refine ⟨(hinit n).2, fun hn => ⟨zero, 0, ?_, fun h => by cases h⟩⟩
    rw [List.foldl_nil, (hinit n).1 hn]; rfl
  | append_singleton l1 m ih =>
    intro e n
    rw [List.append_assoc] at e
    have ih := ih _ e
    rw [List.foldl_append]
    simp only [List.foldl_cons, List.foldl_nil]
    generalize l1.foldl (secondStep hashNode D.arena) (firstPass zero D.arena body) = t at ih ⊢
    have hmA : D.arena.Anc body m := (q1 m).1 (by rw [e]; simp)
    have kids : (D.arena.children m).filterMap t = (D.arena.children m).map (infoOf hashNode D) := by
      rw [← List.filterMap_eq_map]
      apply filterMap_congr'
      intro c hc
      have hpc := (hw.mem_iff _ _).1 hc
      obtain ⟨h, k, ec, hk⟩ := (ih c).2 (.step hpc hmA)
      obtain ⟨rfl, rfl⟩ := hk (q4 l1 m l2 c e hpc)
      rw [ec]; rfl
    obtain ⟨h, k, em, _⟩ := (ih m).2 hmA
    have hstep : secondStep hashNode D.arena t m = Arena.upd t m (some (infoOf hashNode D m)) := by
      unfold secondStep
      rw [kids, em]
      simp only [List.map_map]
      congr 2
      unfold infoOf
      congr 1
      · have hBw := Built.diffable_wf hw
        show _ = (diffable D).fold _ m
        rw [hBw.fold_eq]
        rfl
      · rw [hw.fold_eq]
        unfold DiffTree.heightAlg
        rw [List.isEmpty_map]
        rfl
    rw [hstep]
    by_cases hnm : n = m
    · subst hnm
      refine ⟨fun hn => absurd hmA hn, fun _ => ⟨_, _, by simp only [Arena.upd, if_true], fun _ => ⟨rfl, rfl⟩⟩⟩
    · simp only [Arena.upd, if_neg hnm]
      refine ⟨(ih n).1, fun hn => ?_⟩
      obtain ⟨h, k, e1, e2⟩ := (ih n).2 hn
      refine ⟨h, k, e1, fun hmem => e2 ?_⟩
      rcases List.mem_append.1 hmem with h | h
      · exact h
      · exact absurd (List.mem_singleton.1 h) hnm

/-- **C69**: the hashes stored in the old tree are those of the subtrees. -/
theorem C69_stored_hashes {D : Document} (hD : D.Sound) {body : Nat} (n : Nat)
    (hn : n ∈ (buildTree D body).descendants 0) :
    recomputeHashes hashNode zero (buildTree D body) n = (oldTree hashNode D body).hash n := by
  obtain ⟨f, hb⟩ := buildTree_spec D hD.arena.leafy body
  exact recomputeHashes_eq hb.wf hb.pos ((hb.wf.mem_descendants _ _).1 hn)

/-! ## The new tree -/

variable [DecidableEq H] {missing : NodeInfo H} {D : Document} {body : Nat}

/-- The cast keeps the positions of all nodes that have a parent. -/
def KeepsPositions (cast : Nat → Nat) (A : Arena NodeData) : Prop :=
  ∀ n p, A.parent n = some p → cast (Arena.posIn (A.children p) n) = Arena.posIn (A.children p) n

/-- The new tree read from the table, with the positions that the cached function returns. -/
def tableTree (cast : Nat → Nat) (hashNode : HKind → Option Str → List H → H) (zero : H) (missing : NodeInfo H) (D : Document)
    (body : Nat) : DiffTree H :=
  withPos (treeB (nodeTable hashNode zero D.arena body) zero missing D.arena body)
    (posOf cast (nodeTable hashNode zero D.arena body) D.arena)

variable {cast : Nat → Nat}

theorem tableTree_data (hcast : KeepsPositions cast D.arena) (hD : D.Sound) (hb : D.body = some body) {n : Nat} (hn : D.arena.Anc body n) :
    (tableTree cast hashNode zero missing D body).hash n = (newTree hashNode D body).hash n ∧
    (tableTree cast hashNode zero missing D body).kind n = (newTree hashNode D body).kind n ∧
    (tableTree cast hashNode zero missing D body).props n = (newTree hashNode D body).props n ∧
    (tableTree cast hashNode zero missing D body).text n = (newTree hashNode D body).text n ∧
    (tableTree cast hashNode zero missing D body).isOpaque n = (newTree hashNode D body).isOpaque n ∧
    (tableTree cast hashNode zero missing D body).position n = (newTree hashNode D body).position n := by
  have ht := C69_table (hashNode := hashNode) (zero := zero) hD hb n
  rw [if_pos ((hD.arena.wf.mem_descendants _ _).2 hn)] at ht
  refine ⟨?_, ?_, ?_, ?_, ?_, ?_⟩
  · show ((nodeTable hashNode zero D.arena body n).map NodeInfo.hash).getD zero = _
    rw [ht]; rfl
  · show ((nodeTable hashNode zero D.arena body n).map NodeInfo.kind).getD missing.kind = _
    rw [ht]; rfl
  · show ((nodeTable hashNode zero D.arena body n).map NodeInfo.props).getD missing.props = _
    rw [ht]; rfl
  · show (nodeTable hashNode zero D.arena body n).bind NodeInfo.text = _
    rw [ht]; rfl
  · show ((nodeTable hashNode zero D.arena body n).map fun d => d.props.isOpaque).getD false = _
    rw [ht]; rfl
  · show posOf cast (nodeTable hashNode zero D.arena body) D.arena n = _
    unfold posOf
    rw [ht]
    show _ = (DiffTree.ofArena hashNode (diffable D) body).position n
    unfold DiffTree.ofArena
    show (match D.arena.parent n with
      | none => 0
      | some q => cast (Arena.posIn (D.arena.children q) n)) = (match D.arena.parent n with
      | none => 0
      | some p => Arena.posIn (D.arena.children p) n)
    cases e : D.arena.parent n with
    | none => rfl
    | some p => exact hcast n p e

theorem Renamed_id {Q P : Nat → Prop} {M M' : Matching} (h : M.Renamed Q P id M') : M' = M := by
  obtain ⟨ab, ba, outB, outB', pairs, _, _⟩ := h
  obtain ⟨f, g, l⟩ := M
  obtain ⟨f', g', l'⟩ := M'
  have e1 : f' = f := funext fun a => by have := ab a; simpa using this
  have e2 : g' = g := by
    funext b
    by_cases hb : P b
    · exact ba b hb
    · exact (outB' b fun c hc e => hb (e ▸ hc)).trans (outB b hb).symm
  have e3 : l' = l := by simpa using pairs
  rw [e1, e2, e3]

variable {old new : Document} {ob nb : Nat}

theorem tables_twin (hcast : KeepsPositions cast new.arena) (hold : old.Sound) (hnew : new.Sound) (hnb : new.body = some nb) :
    Twin (oldTree hashNode old ob) (newTree hashNode new nb) (treeA hashNode zero (buildTree old ob))
      (tableTree cast hashNode zero missing new nb) ((buildTree old ob).Anc 0) (new.arena.Anc nb) id := by
  obtain ⟨f, hb⟩ := buildTree_spec old hold.arena.leafy ob
  have hw := hnew.arena.wf
  have hBw := Built.diffable_wf hw
  have hnbp := (hw.mem_iff _ _).1 (Document.body_spec hnb).1
  have hkid : ∀ n c, new.arena.Anc nb n → c ∈ new.arena.children n → new.arena.Anc nb c :=
    fun n c hn hc => .step ((hw.mem_iff _ _).1 hc) hn
  have htop : ¬ new.arena.Anc nb new.root := not_anc_parent hw hnbp
  have hdesc : ∀ n, new.arena.descendants n = (diffable new).descendants n := fun n => (diffable_fold new _ n).symm
  have dat := fun n hn => tableTree_data (hashNode := hashNode) (zero := zero) (missing := missing) hcast hnew hnb (n := n) hn
  exact
    { aroot := rfl, akind := rfl, aprops := rfl, atext := rfl, aparent := rfl, achildren := rfl
      aposition := rfl, aheight := rfl, aiter := rfl, apost := rfl, adesc := rfl, aopaque := rfl
      qroot := .refl
      qkid := fun n c hn hc => .step ((hb.wf.mem_iff _ _).1 hc) hn
      qiter := fun n hn => (hb.wf.mem_descendants _ _).1 hn
      inj := fun _ _ _ _ e => e
      proot := .refl
      broot := rfl
      pkid := hkid
      bkind := fun n hn => (dat n hn).2.1
      bprops := fun n hn => (dat n hn).2.2.1
      btext := fun n hn => (dat n hn).2.2.2.1
      bopaque := fun n hn => (dat n hn).2.2.2.2.1
      bchildren := fun n hn => (List.map_id _).symm
      bparent := by
        intro n hn hne
        rcases hn.cases' with e | ⟨p, hp, hpa⟩
        · exact absurd e.symm hne
        · exact ⟨p, hpa, hp, hp⟩
      btop := ⟨new.root, htop, hnbp⟩
      btop' := ⟨new.root, fun n hn e => htop (e ▸ hn), hnbp⟩
      bposition := fun n hn _ => (dat n hn).2.2.2.2.2
      notRoot := by
        rintro n c hn hcm rfl
        exact not_anc_parent hw ((hw.mem_iff _ _).1 hcm) hn
      biter := by
        rw [List.map_id]; exact hdesc nb
      piter := fun n hn => anc_of_diffable ((hBw.mem_descendants _ _).1 hn)
      bdesc := fun n _ => by rw [List.map_id]; exact hdesc n
      pdesc := fun n m hn hm => hn.trans (anc_of_diffable ((hBw.mem_descendants _ _).1 hm))
      hash := by
        intro a b ha hbb
        have e1 : (treeA hashNode zero (buildTree old ob)).hash a = (oldTree hashNode old ob).hash a :=
          recomputeHashes_eq hb.wf hb.pos ha
        rw [e1]
        show _ = (tableTree cast hashNode zero missing new nb).hash b ↔ _
        rw [(dat b hbb).1] }

theorem tables_script (hcast : KeepsPositions cast new.arena) (hold : old.Sound) (hnew : new.Sound) (hnb : new.body = some nb) {M : Matching}
    (hM : ∀ p ∈ M.pairs, new.arena.Anc nb p.2) :
    Hotmeal.generateEditScript (treeA hashNode zero (buildTree old ob)) (tableTree cast hashNode zero missing new nb) M =
    Hotmeal.generateEditScript (oldTree hashNode old ob) (newTree hashNode new nb) M := by
  have hT := tables_twin (hashNode := hashNode) (zero := zero) (missing := missing) (ob := ob) hcast hold hnew hnb
  have dat := fun n hn => tableTree_data (hashNode := hashNode) (zero := zero) (missing := missing) hcast hnew hnb (n := n) hn
  have ho := hT.opaqueDescendants_b
  rw [List.map_id] at ho
  unfold Hotmeal.generateEditScript
  simp only [hT.opaqueDescendants_a, ho]
  congr 1
  congr 1
  congr 1
  · unfold Hotmeal.updateOps
    apply flatMap_congr'
    intro p hp
    obtain ⟨_, _, h2, h3, _⟩ := dat p.2 (hM p hp)
    have e1 : textOps (treeA hashNode zero (buildTree old ob)) (tableTree cast hashNode zero missing new nb) p.1 p.2 =
        textOps (oldTree hashNode old ob) (newTree hashNode new nb) p.1 p.2 := by
      unfold textOps
      rw [h3]; rfl
    have e2 : propOps (treeA hashNode zero (buildTree old ob)) (tableTree cast hashNode zero missing new nb) p.1 p.2 =
        propOps (oldTree hashNode old ob) (newTree hashNode new nb) p.1 p.2 := by
      unfold propOps
      rw [h2]; rfl
    rw [e1, e2]
  · unfold Hotmeal.insertOps
    rw [hT.biter, List.map_id]
    apply flatMap_congr'
    intro b hb
    have hP := hT.piter b hb
    obtain ⟨_, h1, _, _, _, h5⟩ := dat b hP
    rw [h1, h5]
    rfl
  · unfold Hotmeal.moveOps
    apply flatMap_congr'
    intro p hp
    unfold Hotmeal.moveOp
    rw [(dat p.2 (hM p hp)).2.2.2.2.2]
    rfl

theorem convertOp_data {B B' : Arena TData} {P : Nat → Prop} (h : ArenaTwin B B' P id) {ins : List Nat} (C : Conv)
    {op : EditOp} (hop : ∀ b pb pos k, op = .insert b pb pos k → P b) :
    convertOp B' ins C op = convertOp B ins C op := by
  cases op with
  | insert b pb pos k =>
    have hb := hop b pb pos k rfl
    have hd : B'.data b = B.data b := h.data b hb
    have he : ∀ skip, extractChildren B' skip b = extractChildren B skip b := fun skip =>
      h.extractChildren (skip := skip) (skip' := skip) (fun _ _ => rfl) hb
    simp only [convertOp, hd, he]
  | updateProps => rfl
  | setText => rfl
  | move => rfl
  | delete => rfl

theorem insert_in_iter {TA TB : DiffTree H} {M : Matching} {b pb pos : Nat} {k : HKind}
    (h : EditOp.insert b pb pos k ∈ Hotmeal.generateEditScript TA TB M) : b ∈ TB.iter := by
  unfold Hotmeal.generateEditScript at h
  simp only [List.mem_append] at h
  rcases h with ((h | h) | h) | h
  · obtain ⟨p, _, h⟩ := List.mem_flatMap.1 h
    split at h
    · cases h
    · rcases List.mem_append.1 h with h | h
      · unfold textOps at h
        split at h
        · cases h
        · split at h
          · cases List.mem_singleton.1 h
          · cases h
      · unfold propOps at h
        split at h
        · cases h
        · dsimp only at h
          split at h
          · cases List.mem_singleton.1 h
          · cases h
  · obtain ⟨b', hb', h⟩ := List.mem_flatMap.1 h
    split at h
    · cases h
    · split at h
      · cases h
      · split at h
        · cases h
        · cases List.mem_singleton.1 h; exact hb'
  · obtain ⟨p, _, h⟩ := List.mem_flatMap.1 h
    unfold Hotmeal.moveOp at h
    split at h
    · cases h
    · split at h
      · split at h
        · cases List.mem_singleton.1 h
        · split at h
          · cases List.mem_singleton.1 h
          · cases h
      · cases h
  · obtain ⟨a, _, h⟩ := List.mem_flatMap.1 h
    split at h
    · cases h
    · split at h
      · cases h
      · cases List.mem_singleton.1 h

theorem convertLoop_data {B B' : Arena TData} {P : Nat → Prop} (h : ArenaTwin B B' P id) {ins : List Nat}
    (ops : List EditOp) : ∀ C : Conv, (∀ op ∈ ops, ∀ b pb pos k, op = .insert b pb pos k → P b) →
    convertLoop B' ins C ops = convertLoop B ins C ops := by
  induction ops with
  | nil => intro C _; rfl
  | cons op ops ih =>
    intro C hops
    have hrest := fun C' => ih C' fun o ho => hops o (List.mem_cons_of_mem _ ho)
    rw [convertLoop, convertLoop, convertOp_data h C (hops op List.mem_cons_self)]
    cases convertOp B ins C op with
    | error e => rfl
    | ok r =>
      obtain ⟨C', ps⟩ := r
      show (do
        let (C, qs) ← convertLoop B' ins C' ops
        Except.ok (C, ps ++ qs)) = do
        let (C, qs) ← convertLoop B ins C' ops
        Except.ok (C, ps ++ qs)
      rw [hrest]

/-- Tables, caches, casts and rounding do not change the patches if the cast keeps positions and the scores decide as
exact fractions do. -/
theorem diff_of_agrees {sc : Scoring} (hcast : KeepsPositions cast new.arena) (hag : ∀ ob nb, old.body = some ob →
      new.body = some nb → ∃ rel, Agrees sc Config.diff rel (treeA hashNode zero (buildTree old ob))
        (treeB (nodeTable hashNode zero new.arena nb) zero missing new.arena nb))
    (order : List Nat → List Nat) (horder : ∀ l, (order l).Perm l) (hold : old.Sound) (hnew : new.Sound) :
    Tables.diff sc cast order missing hashNode zero old new = Hotmeal.diff hashNode old new := by
  unfold Tables.diff Hotmeal.diff
  cases hob : old.body with
  | none => cases new.body <;> rfl
  | some ob =>
    cases hnb : new.body with
    | none => rfl
    | some nb =>
      simp only
      split
      · rfl
      · obtain ⟨f, hb⟩ := buildTree_spec old hold.arena.leafy ob
        have hw := hnew.arena.wf
        have hBw := Built.diffable_wf hw
        have hT := tables_twin (hashNode := hashNode) (zero := zero) (missing := missing) (ob := ob) hcast hold hnew hnb
        have hM := hT.diffMatching
        have hMe := Renamed_id hM
        have hpairs : ∀ p ∈ (diffMatching (oldTree hashNode old ob) (newTree hashNode new nb)).pairs,
            new.arena.Anc nb p.2 := fun p hp => (hM.inPairs p hp).2
        have hy := yields_matchAndScript (order := order)
          (pos := position cast (nodeTable hashNode zero new.arena nb) new.arena)
          (TA := treeA hashNode zero (buildTree old ob))
          (TB := treeB (nodeTable hashNode zero new.arena nb) zero missing new.arena nb)
          (f := posOf cast (nodeTable hashNode zero new.arena nb) new.arena)
          (yields_position _ _ _) (hag ob nb hob hnb).choose_spec horder hb.wf.descendants_nodup hw.descendants_nodup
          ⟨fun _ => none, fun _ => none, fun _ => none⟩
          ⟨(fun _ _ h => by cases h), (fun _ _ h => by cases h), (fun _ _ h => by cases h)⟩
        obtain ⟨⟨h1, h2⟩, _⟩ := hy
        change (VMatching.forget _) = diffMatching _ (tableTree cast hashNode zero missing new nb) at h1
        change _ = Hotmeal.generateEditScript _ (tableTree cast hashNode zero missing new nb)
          (diffMatching _ (tableTree cast hashNode zero missing new nb)) at h2
        rw [hMe] at h1 h2
        rw [tables_script hcast hold hnew hnb hpairs] at h2
        erw [h1, h2]
        have hdat := fun n hn => tableTree_data (hashNode := hashNode) (zero := zero) (missing := missing) hcast
          hnew hnb (n := n) hn
        have htw : ArenaTwin (diffable new) (tableArena (treeB (nodeTable hashNode zero new.arena nb) zero missing
            new.arena nb) new.arena) (new.arena.Anc nb) id := by
          refine ⟨hBw, ?_, fun n hn => ?_, fun n _ => (List.map_id _).symm, fun n c hn hc =>
            .step ((hw.mem_iff _ _).1 hc) hn, fun _ _ _ _ e => e⟩
          · exact ⟨hBw.lt_of_parent, hBw.mem_iff, hBw.nodup, hBw.acyclic⟩
          · obtain ⟨_, e1, e2, e3, _⟩ := hdat n hn
            show (⟨(tableTree cast hashNode zero missing new nb).kind n, (tableTree cast hashNode zero missing new nb).props n,
              (tableTree cast hashNode zero missing new nb).text n⟩ : TData) = _
            rw [e1, e2, e3]
            rfl
        have hconv : ∀ M : Matching, convertOps (Hotmeal.generateEditScript (oldTree hashNode old ob)
            (newTree hashNode new nb) (diffMatching (oldTree hashNode old ob) (newTree hashNode new nb)))
            (buildTree old ob) 0 (tableArena (treeB (nodeTable hashNode zero new.arena nb) zero missing new.arena nb)
              new.arena) M = convertOps (Hotmeal.generateEditScript (oldTree hashNode old ob)
            (newTree hashNode new nb) (diffMatching (oldTree hashNode old ob) (newTree hashNode new nb)))
            (buildTree old ob) 0 (diffable new) M := by
          intro M
          unfold convertOps
          cases Shadow.new (buildTree old ob) 0 with
          | error e => rfl
          | ok S =>
            have hl := convertLoop_data (ins := insertedNodes (Hotmeal.generateEditScript (oldTree hashNode old ob)
              (newTree hashNode new nb) (diffMatching (oldTree hashNode old ob) (newTree hashNode new nb)))) htw
              (Hotmeal.generateEditScript (oldTree hashNode old ob)
              (newTree hashNode new nb) (diffMatching (oldTree hashNode old ob) (newTree hashNode new nb)))
              ⟨S, initBToShadow M⟩ (by
                rintro op hop b pb pos k rfl
                exact hT.piter b (insert_in_iter hop))
            show (do
              let (_, ps) ← convertLoop _ _ ⟨S, initBToShadow M⟩ _
              Except.ok ps) = do
              let (_, ps) ← convertLoop _ _ ⟨S, initBToShadow M⟩ _
              Except.ok ps
            rw [hl]
        have hchg : opaqueChanges (treeA hashNode zero (buildTree old ob))
            (treeB (nodeTable hashNode zero new.arena nb) zero missing new.arena nb) new.arena
            (diffMatching (oldTree hashNode old ob) (newTree hashNode new nb)) =
            opaqueChanges (oldTree hashNode old ob) (newTree hashNode new nb) new.arena
            (diffMatching (oldTree hashNode old ob) (newTree hashNode new nb)) := by
          unfold opaqueChanges
          apply filterMap_congr'
          intro p hp
          obtain ⟨hq, hpp⟩ := hM.inPairs p hp
          have e1 := hT.bopaque p.2 hpp
          have e2 := hT.hash p.1 p.2 hq hpp
          simp only [id] at e1 e2
          change (treeB (nodeTable hashNode zero new.arena nb) zero missing new.arena nb).isOpaque p.2 = _ at e1
          change _ = (treeB (nodeTable hashNode zero new.arena nb) zero missing new.arena nb).hash p.2 ↔ _ at e2
          rw [e1]
          simp only [e2]
        rw [hconv, hchg]

/-- **C69**: tables, caches and hash sets do not change the patches. The code fills tables with hashes and heights
before it compares, keeps positions and sets of descendants once it has computed them, stores the matching in
vectors that grow, and iterates over hash sets in an order that nobody controls. Whatever that order is, the result
is that of `diff` with everything computed directly from the documents. Whatever a lookup of a node outside the body
would give (`missing`), it is not used. -/
theorem C69_tables (order : List Nat → List Nat) (horder : ∀ l, (order l).Perm l) (missing : NodeInfo H)
    (hold : old.Sound) (hnew : new.Sound) :
    Tables.diff (.exact Config.diff) id order missing hashNode zero old new = Hotmeal.diff hashNode old new :=
  diff_of_agrees (fun _ _ _ => rfl) (fun _ _ _ _ => ⟨_, agrees_exact _ _ _⟩) order horder hold hnew

/-- **C69**: the patches are the same every time: two runs that iterate over their hash sets in different orders
return the same patches. -/
theorem C69_reproducible (order order' : List Nat → List Nat) (h : ∀ l, (order l).Perm l)
    (h' : ∀ l, (order' l).Perm l) (missing missing' : NodeInfo H) (hold : old.Sound) (hnew : new.Sound) :
    Tables.diff (.exact Config.diff) id order missing hashNode zero old new =
      Tables.diff (.exact Config.diff) id order' missing' hashNode zero old new := by
  rw [C69_tables order h missing hold hnew, C69_tables order' h' missing' hold hnew]

/-- **C69**: whichever nodes have been asked for before, in whichever order, `position` returns the position of the
node among the children of its parent. -/
theorem C69_cached_positions (hD : D.Sound) (hb : D.body = some body) (calls : List Nat) (n p : Nat)
    (hn : n ∈ D.arena.descendants body) (hp : D.arena.parent n = some p) :
    (D.arena.children p)[(position id (nodeTable hashNode zero D.arena body) D.arena n
      (calls.foldl (fun c k => (position id (nodeTable hashNode zero D.arena body) D.arena k c).2)
        ⟨fun _ => none, fun _ => none, fun _ => none⟩)).1]? = some n := by
  have hw := hD.arena.wf
  have hmem := (hw.mem_iff _ _).2 hp
  have hpos : posOf id (nodeTable hashNode zero D.arena body) D.arena n = Arena.posIn (D.arena.children p) n := by
    unfold posOf
    rw [C69_table hD hb, if_pos hn, hp]; rfl
  have hy := yields_position (TA := newTree hashNode D body) (TB := newTree hashNode D body) id
    (nodeTable hashNode zero D.arena body) D.arena
  have key : ∀ c, Right (newTree hashNode D body) (newTree hashNode D body)
      (posOf id (nodeTable hashNode zero D.arena body) D.arena) c →
      Right (newTree hashNode D body) (newTree hashNode D body) (posOf id (nodeTable hashNode zero D.arena body) D.arena)
        (calls.foldl (fun c k => (position id (nodeTable hashNode zero D.arena body) D.arena k c).2) c) := by
    induction calls with
    | nil => intro c hc; exact hc
    | cons k ks ih => intro c hc; exact ih _ (hy k c hc).2
  rw [(hy n _ (key _ ⟨(fun _ _ h => by cases h), (fun _ _ h => by cases h), (fun _ _ h => by cases h)⟩)).1, hpos]
  exact Arena.getElem?_posIn hmem

omit [DecidableEq H] in
/-- **C69**: the score of two attribute lists does not depend on the order in which the hash sets of their names
are enumerated. -/
theorem C69_similarity (a b : Attrs) (ka kb : List QualName) (ha : ka.Nodup) (hb : kb.Nodup)
    (hma : ∀ k, k ∈ ka ↔ k ∈ a.map Prod.fst) (hmb : ∀ k, k ∈ kb ↔ k ∈ b.map Prod.fst) :
    a.similarity b = if a.isEmpty && b.isEmpty then ⟨1, 1⟩
      else if ka.length + kb.length = 0 then ⟨1, 1⟩
      else ⟨2 * (ka.filter fun k => decide (k ∈ kb)).length, ka.length + kb.length⟩ := by
  have pa : ka.Perm a.keySet := (List.perm_ext_iff_of_nodup ha (by unfold Attrs.keySet; exact nodup_eraseDups _)).2
    fun k => by rw [hma]; unfold Attrs.keySet Attrs.keys; rw [List.mem_eraseDups]
  have pb : kb.Perm b.keySet := (List.perm_ext_iff_of_nodup hb (by unfold Attrs.keySet; exact nodup_eraseDups _)).2
    fun k => by rw [hmb]; unfold Attrs.keySet Attrs.keys; rw [List.mem_eraseDups]
  unfold Attrs.similarity
  simp only [pa.length_eq, pb.length_eq, (pa.filter _).length_eq, pb.mem_iff]

/-! ## Cases that meet the hypotheses -/

/-- Sets iterated backwards; a hash that keeps the whole tree. The result is the same, and it is not trivial. -/
example : (Document.ofForest ex1).Sound ∧ (Document.ofForest ex2).Sound ∧
    (∀ l : List Nat, l.reverse.Perm l) ∧
    (match Tables.diff (.exact Config.diff) id List.reverse ⟨Shape.node .comment none [], .comment, [], none, 9⟩ Shape.node
      (Shape.node .comment none []) (.ofForest ex1) (.ofForest ex2) with
      | .ok ps => decide (3 < ps.length)
      | .error _ => false) = true :=
  ⟨ofForest_sound _ (by decide +kernel), ofForest_sound _ (by decide +kernel), List.reverse_perm, by decide +kernel⟩

/-- A table, a node in it, and calls that have filled the cache before. -/
example : (Document.ofForest ex2).body = some 2 ∧ 7 ∈ (Document.ofForest ex2).arena.descendants 2 ∧
    (Document.ofForest ex2).arena.parent 7 = some 4 := by decide +kernel

end Tables
end Hotmeal
