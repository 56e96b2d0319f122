import Verif.Props.Same
import Verif.Props.Slots
import Verif.Props.Matching

set_option autoImplicit false
set_option linter.unusedSectionVars false

/-!
# C37: reports of changed opaque content
-/

namespace Hotmeal

variable {H : Type} [DecidableEq H] {hashNode : HKind → Option Str → List H → H}
  {old new : Document} {ob nb : Nat}

/-- The same node up to the attributes. -/
def NodeData.SameTag (d e : NodeData) : Prop :=
  d.kind = e.kind ∧ (∀ tag attrs, d.kind ≠ .element tag attrs) ∨
  ∃ tag attrs attrs', d.kind = .element tag attrs ∧ e.kind = .element tag attrs' ∧ d.ns = e.ns

theorem sameTag_iff {d e : NodeData} (hd : d.kind ≠ .document) (he : e.kind ≠ .document) :
    d.SameTag e ↔ (tdataOf d).kind = (tdataOf e).kind ∧ (tdataOf d).text = (tdataOf e).text := by
  obtain ⟨k, ns⟩ := d
  obtain ⟨k', ns'⟩ := e
  cases k <;> cases k' <;> simp_all [NodeData.SameTag, tdataOf, eq_comm]

/-- `n` is an opaque element. -/
def NodeData.Opaque (d : NodeData) : Prop :=
  ∃ tag attrs, d.kind = .element tag attrs ∧ attrs.marked = true

theorem opaque_iff {d : NodeData} : (tdataOf d).props.isOpaque = true ↔ d.Opaque := by
  obtain ⟨k, ns⟩ := d
  cases k with
  | element tag attrs =>
    simp only [tdataOf, NodeData.Opaque, NodeKind.element.injEq]
    exact ⟨fun h => ⟨_, _, ⟨rfl, rfl⟩, h⟩, fun ⟨_, _, ⟨_, e⟩, h⟩ => e ▸ h⟩
  | _ => simp [tdataOf, NodeData.Opaque, Attrs.isOpaque]

theorem Bodies.oldDoc (h : Bodies old new ob nb) {g : Nat → Nat} {T : Arena TData}
    (hb : Built old ob T g) {a : Nat} (ha : a < T.next) :
    (old.arena.data (g a)).kind ≠ .document ∧
    (T.data a).kind = (tdataOf (old.arena.data (g a))).kind ∧
    (T.data a).text = (tdataOf (old.arena.data (g a))).text := by
  by_cases h0 : a = 0
  · subst h0
    obtain ⟨_, oa, hok⟩ := Document.body_spec h.oldBody
    rw [hb.g0, hb.rdata]
    simp [bodyKind, tdataOf, hok]
  · obtain ⟨q, hq⟩ := hb.par a ha h0
    exact ⟨h.old.arena.nodoc _ _ hq, by rw [hb.data a ha h0], by rw [hb.data a ha h0]⟩

theorem Bodies.newDoc (h : Bodies old new ob nb) {b : Nat} (hb : new.arena.Anc nb b) :
    (new.arena.data b).kind ≠ .document := by
  obtain ⟨_, na, hnk⟩ := Document.body_spec h.newBody
  rcases hb.cases' with rfl | ⟨p, hp, _⟩
  · rw [hnk]; intro e; cases e
  · exact h.new.arena.nodoc b p hp

theorem Bodies.diffable_wf (h : Bodies old new ob nb) : (diffable new).WF :=
  let sn := h.new.arena
  ⟨sn.wf.lt_of_parent, sn.wf.mem_iff, sn.wf.nodup, sn.wf.acyclic⟩

/-- Hashes tell whether two subtrees agree up to attributes. -/
theorem Bodies.hash_iff (h : Bodies old new ob nb)
    (hc : NoCollision hashNode (buildTree old ob) (diffable new) nb) {g : Nat → Nat}
    (hb : Built old ob (buildTree old ob) g) {a b : Nat} (ha : a < (buildTree old ob).next)
    (hb' : new.arena.Anc nb b) :
    (oldTree hashNode old ob).hash a = (newTree hashNode new nb).hash b ↔
      Arena.Alike NodeData.SameTag old.arena new.arena (g a) b := by
  have hA := hb.wf
  have hB := h.diffable_wf
  constructor
  · intro e
    have hs := hc a b (hb.reach a ha) (diffable_anc hb') e
    clear e
    revert b
    refine hA.induct_down (P := fun a => a < (buildTree old ob).next → ∀ {b}, new.arena.Anc nb b →
      (buildTree old ob).shape a = (diffable new).shape b →
      Arena.Alike NodeData.SameTag old.arena new.arena (g a) b) ?_ a ha
    intro a ih ha b hb' hs
    rw [hA.shape_eq, hB.shape_eq] at hs
    injection hs with hs1 hs2 hs3
    obtain ⟨h1, h2, h3⟩ := h.oldDoc hb ha
    have hlen := congrArg List.length hs3
    rw [List.length_map, List.length_map] at hlen
    refine .node ((sameTag_iff h1 (h.newDoc hb')).2 ⟨h2 ▸ hs1, h3 ▸ hs2⟩) ?_ ?_
    · rw [hb.kids a ha, List.length_map]; exact hlen
    · intro i c d hc' hd
      rw [hb.kids a ha, List.getElem?_map] at hc'
      cases hi : ((buildTree old ob).children a)[i]? with
      | none => rw [hi] at hc'; cases hc'
      | some x =>
        rw [hi] at hc'; cases hc'
        have hx := List.mem_of_getElem? hi
        have hd' := (h.new.arena.wf.mem_iff _ _).1 (List.mem_of_getElem? hd)
        refine ih x hx (hA.lt_of_parent _ _ ((hA.mem_iff _ _).1 hx)).1
          (Arena.Anc.trans hb' (.step hd' .refl)) ?_
        have e := congrArg (fun l => l[i]?) hs3
        simp only [List.getElem?_map] at e
        rw [hi] at e
        have hd2 : ((diffable new).children b)[i]? = some d := hd
        rw [hd2] at e
        simpa using e
  · intro e
    show (buildTree old ob).fold _ a = (diffable new).fold _ b
    revert b
    refine hA.induct_down (P := fun a => a < (buildTree old ob).next → ∀ {b}, new.arena.Anc nb b →
      Arena.Alike NodeData.SameTag old.arena new.arena (g a) b →
      (buildTree old ob).fold _ a = (diffable new).fold _ b) ?_ a ha
    intro a ih ha b hb' hs
    cases hs with
    | node data len kids =>
    obtain ⟨h1, h2, h3⟩ := h.oldDoc hb ha
    obtain ⟨e1, e2⟩ := (sameTag_iff h1 (h.newDoc hb')).1 data
    rw [hA.fold_eq, hB.fold_eq, h2, h3, e1, e2]
    show hashNode _ _ _ = hashNode _ _ _
    congr 1
    rw [hb.kids a ha, List.length_map] at len
    apply List.ext_getElem?
    intro i
    rw [List.getElem?_map, List.getElem?_map]
    cases hi : ((buildTree old ob).children a)[i]? with
    | none =>
      have : ((diffable new).children b)[i]? = none := by
        rw [List.getElem?_eq_none_iff] at hi ⊢
        exact (len ▸ hi : (new.arena.children b).length ≤ i)
      rw [this]; rfl
    | some x =>
      cases hj : ((diffable new).children b)[i]? with
      | none =>
        have hj' : (new.arena.children b).length ≤ i := List.getElem?_eq_none_iff.1 hj
        have := (List.getElem?_eq_some_iff.1 hi).1
        omega
      | some y =>
        have hx := List.mem_of_getElem? hi
        have hy := (h.new.arena.wf.mem_iff _ _).1 (List.mem_of_getElem? (l := new.arena.children b) hj)
        simp only [Option.map_some, Option.some.injEq]
        refine ih x hx (hA.lt_of_parent _ _ ((hA.mem_iff _ _).1 hx)).1
          (Arena.Anc.trans hb' (.step hy .refl)) (kids i _ _ ?_ hj)
        rw [hb.kids a ha, List.getElem?_map, hi]; rfl

theorem reparentChildren_noReport {S S' : Shadow} {n : Nat} {ps : List Patch}
    (h : reparentChildren S n = .ok (S', ps)) : ∀ P ∈ ps, P.isReport = false := by
  unfold reparentChildren at h
  split at h
  · cases h
  · next p _ =>
    simp only at h
    generalize (S.arena.children n).zipIdx.reverse = l at h
    generalize Arena.posIn (S.arena.children p) n = pos at h
    suffices ∀ (l : List (Nat × Nat)) (S : Shadow) (out : List Patch), (∀ P ∈ out, P.isReport = false) →
        ∀ S' ps, l.foldlM (fun (x : Shadow × List Patch) (ci : Nat × Nat) => do
          let (S, patch) ← reparentChild p pos x.1 ci.2 ci.1
          .ok (S, x.2 ++ [patch])) (S, out) = Except.ok (ε := Err) (S', ps) → ∀ P ∈ ps, P.isReport = false from
      this l S [] (by simp) S' ps h
    intro l
    induction l with
    | nil =>
      intro S out ho S' ps h
      cases h; exact ho
    | cons ci l ih =>
      intro S out ho S' ps h
      rw [List.foldlM_cons] at h
      obtain ⟨v, h1, h2⟩ := res_bind h
      obtain ⟨v1, h3, h4⟩ := res_bind h1
      cases h4
      refine ih _ _ ?_ _ _ h2
      intro P hP
      rcases List.mem_append.1 hP with hP | hP
      · exact ho P hP
      · simp only [List.mem_singleton] at hP
        subst hP
        unfold reparentChild at h3
        obtain ⟨u, _, h5⟩ := res_bind h3
        simp only at h5
        split at h5
        · obtain ⟨u', _, h6⟩ := res_bind h5
          cases h6; rfl
        · obtain ⟨u', _, h6⟩ := res_bind h5
          cases h6; rfl

theorem convertOp_noReport {B : Arena TData} {ins : List Nat} {C C' : Conv} {op : EditOp}
    {ps : List Patch} (h : convertOp B ins C op = .ok (C', ps)) : ∀ P ∈ ps, P.isReport = false := by
  cases op with
  | updateProps => cases h; simp [Patch.isReport]
  | setText => cases h; simp [Patch.isReport]
  | delete a =>
    obtain ⟨v, _, h⟩ := res_bind h
    cases h; simp [Patch.isReport]
  | insert b pb pos kind =>
    obtain ⟨v, _, h⟩ := res_bind h
    obtain ⟨v', _, h⟩ := res_bind h
    cases h
    cases kind <;> simp [Patch.isReport]
  | move a b pb pos =>
    obtain ⟨v, _, h⟩ := res_bind h
    simp only at h
    split at h
    · obtain ⟨v', hv', h⟩ := res_bind h
      obtain ⟨v'', _, h⟩ := res_bind h
      cases h
      intro P hP
      rcases List.mem_append.1 hP with hP | hP
      · exact reparentChildren_noReport hv' P hP
      · simp only [List.mem_singleton] at hP
        subst hP; rfl
    · obtain ⟨v', hv', h⟩ := res_bind h
      cases hv'
      obtain ⟨v'', _, h⟩ := res_bind h
      cases h
      simp [Patch.isReport]

theorem convertLoop_noReport {B : Arena TData} {ins : List Nat} (ops : List EditOp) :
    ∀ {C C' : Conv} {ps : List Patch}, convertLoop B ins C ops = .ok (C', ps) →
      ∀ P ∈ ps, P.isReport = false := by
  induction ops with
  | nil => intro C C' ps h; cases h; simp
  | cons op ops ih =>
    intro C C' ps h
    obtain ⟨v, h1, h⟩ := res_bind h
    obtain ⟨v', h2, h⟩ := res_bind h
    cases h
    intro P hP
    rcases List.mem_append.1 hP with hP | hP
    · exact convertOp_noReport h1 P hP
    · exact ih h2 P hP

/-- The matched pairs whose new element is opaque and whose content differs in more than attributes. -/
def ChangedOpaque (hashNode : HKind → Option Str → List H → H) (old new : Document) (ob nb : Nat)
    (g : Nat → Nat) (a b : Nat) : Prop :=
  (a, b) ∈ (diffMatching (oldTree hashNode old ob) (newTree hashNode new nb)).pairs ∧
    (new.arena.data b).Opaque ∧ ¬ Arena.Alike NodeData.SameTag old.arena new.arena (g a) b

/-- **C37**, partial. The patches of `diff` are patches of other kinds followed by the reports: one for
each matched element that is opaque in the new document and whose content differs in more than attributes,
with the new inner HTML. The path leads to the element in the *old* document.
Missing from the full statement: changes of attributes inside the content are not reported
(`C37_violated_attributes`), and the path need not lead to the element once the other patches have been
applied (`C37_violated_path`; `C37_path_without_moves_partial` is the case in which it does). -/
theorem C37_one_report_each_partial (h : Bodies old new ob nb)
    (hc : NoCollision hashNode (buildTree old ob) (diffable new) nb)
    {ps : List Patch} (hd : diff hashNode old new = .ok ps) :
    ∃ (g : Nat → Nat) (qs : List Patch) (l : List (Nat × Nat)) (path : Nat → Path),
      Built old ob (buildTree old ob) g ∧
      ps = qs ++ l.map (fun p => .opaqueChanged (path p.1) (Html.serL false (new.arena.forest p.2))) ∧
      (∀ P ∈ qs, P.isReport = false) ∧ l.Nodup ∧
      (∀ a b, (a, b) ∈ l ↔ ChangedOpaque hashNode old new ob nb g a b) ∧
      ∀ a b, (a, b) ∈ l → Leads old.arena (Arena.upd (fun _ => none) 0 (some ob)) (path a) (g a) := by
  obtain ⟨g, hb⟩ := buildTree_spec old h.old.arena.leafy ob
  have hBw := h.diffable_wf
  obtain ⟨hnd, hin⟩ := diffMatching_pairs (hashNode := hashNode) hb.wf hBw (ra := 0) (rb := nb)
  have lt_of_reach : ∀ {a}, (buildTree old ob).Anc 0 a → a < (buildTree old ob).next := by
    intro a ha
    rcases ha.cases' with rfl | ⟨p, hp, _⟩
    · exact hb.pos
    · exact (hb.wf.lt_of_parent _ _ hp).1
  obtain ⟨S, hS, hSi⟩ := Shadow.new_init hb.wf hb.pos hb.root
  unfold diff at hd
  simp only [h.oldBody, h.newBody] at hd
  split at hd
  · cases hd
  obtain ⟨qs, hq, hd⟩ := res_bind hd
  obtain ⟨rs, hr, hd⟩ := res_bind hd
  cases hd
  unfold convertOps at hq
  obtain ⟨S', hS', hq⟩ := res_bind hq
  obtain ⟨v, hv, hq⟩ := res_bind hq
  cases hq
  have hq' := convertLoop_noReport _ hv
  generalize hM : diffMatching (oldTree hashNode old ob) (newTree hashNode new nb) = M at *
  have hM' : diffMatching (DiffTree.ofArena hashNode (buildTree old ob) 0)
      (DiffTree.ofArena hashNode (diffable new) nb) = M := hM
  rw [hM'] at hnd hin
  have hrs : rs = (opaqueChanges (oldTree hashNode old ob) (newTree hashNode new nb) new.arena M).map
      fun c => .opaqueChanged (S.computePath c.1) c.2 := by
    unfold opaquePatches at hr
    split at hr
    · next e => rw [List.isEmpty_iff.1 e]; cases hr; rfl
    · rw [hS] at hr; cases hr; rfl
  have hoc : opaqueChanges (oldTree hashNode old ob) (newTree hashNode new nb) new.arena M =
      (M.pairs.filter fun p => (newTree hashNode new nb).isOpaque p.2 &&
        !decide ((oldTree hashNode old ob).hash p.1 = (newTree hashNode new nb).hash p.2)).map
      fun p => (p.1, Html.serL false (new.arena.forest p.2)) := by
    unfold opaqueChanges
    induction M.pairs with
    | nil => rfl
    | cons p l ih =>
      rw [List.filterMap_cons, List.filter_cons, ih]
      cases h1 : (newTree hashNode new nb).isOpaque p.2
      · simp
      · by_cases h2 : (oldTree hashNode old ob).hash p.1 = (newTree hashNode new nb).hash p.2
        · simp [h2]
        · simp [h2, serializeInner_eq]
  refine ⟨g, v.2, M.pairs.filter fun p => (newTree hashNode new nb).isOpaque p.2 &&
        !decide ((oldTree hashNode old ob).hash p.1 = (newTree hashNode new nb).hash p.2),
    S.computePath, hb, ?_, hq', hnd.filter _, ?_, ?_⟩
  · rw [hrs, hoc, List.map_map]; rfl
  · intro a b
    rw [List.mem_filter, Bool.and_eq_true, Bool.not_eq_true', decide_eq_false_iff_not]
    unfold ChangedOpaque
    rw [hM]
    refine and_congr_right fun hab => and_congr ?_ ?_
    · exact opaque_iff
    · rw [h.hash_iff hc hb (lt_of_reach (hin a b hab).1) (anc_of_diffable (hin a b hab).2)]
  · intro a b hab
    exact hb.leads hSi (by simp) (lt_of_reach (hin a b (List.mem_filter.1 hab).1).1)

/-- A patch that changes texts or attributes. -/
def Patch.keepsTree : Patch → Bool
  | .setText _ _ => true
  | .setAttribute _ _ _ => true
  | .removeAttribute _ _ => true
  | .updateProps _ _ => true
  | _ => false

theorem applyPatch_keepsTree {parse : Str → Document} {A A' : Arena NodeData} {slots slots' : Slots}
    {P : Patch} (hP : P.keepsTree = true) (h : applyPatch parse A slots P = .ok (A', slots')) :
    A'.children = A.children ∧ slots' = slots := by
  cases P with
  | setText q s =>
    obtain ⟨n, _, h⟩ := res_bind h
    split at h <;> first | (cases h; exact ⟨rfl, rfl⟩) | cases h
  | setAttribute q k v =>
    obtain ⟨n, _, h⟩ := res_bind h
    split at h <;> first | (cases h; exact ⟨rfl, rfl⟩) | cases h
  | removeAttribute q k =>
    obtain ⟨n, _, h⟩ := res_bind h
    split at h <;> first | (cases h; exact ⟨rfl, rfl⟩) | cases h
  | updateProps q ch =>
    obtain ⟨n, _, h⟩ := res_bind h
    split at h <;> (cases h; exact ⟨rfl, rfl⟩)
  | _ => cases hP

theorem applyLoop_keepsTree {parse : Str → Document} {ps : List Patch} :
    ∀ {A A' : Arena NodeData} {slots slots' : Slots}, (∀ P ∈ ps, P.keepsTree = true) →
      applyLoop parse A slots ps = .ok (A', slots') → A'.children = A.children ∧ slots' = slots := by
  induction ps with
  | nil => intro A A' slots slots' _ h; cases h; exact ⟨rfl, rfl⟩
  | cons P ps ih =>
    intro A A' slots slots' hP h
    obtain ⟨v, h1, h2⟩ := res_bind h
    obtain ⟨e1, e2⟩ := applyPatch_keepsTree (hP P (by simp)) h1
    obtain ⟨e3, e4⟩ := ih (fun P h => hP P (by simp [h])) h2
    exact ⟨e3.trans e1, e4.trans e2⟩

theorem Leads.congr {A A' : Arena NodeData} {slots : Slots} (hc : A'.children = A.children)
    {q : Path} {n : Nat} (h : Leads A slots q n) : Leads A' slots q n := by
  induction h with
  | slot h => exact .slot h
  | child _ h2 ih => exact .child ih (by rw [hc]; exact h2)

/-- **C37**, the path, for diffs that otherwise only change texts and attributes: when the patches
before the reports have been applied, the path of every report leads to its element. -/
theorem C37_path_without_moves_partial (h : Bodies old new ob nb)
    (hc : NoCollision hashNode (buildTree old ob) (diffable new) nb)
    {ps : List Patch} (hd : diff hashNode old new = .ok ps)
    (hk : ∀ P ∈ ps, P.isReport = true ∨ P.keepsTree = true) :
    ∃ (g : Nat → Nat) (qs : List Patch) (l : List (Nat × Nat)) (path : Nat → Path),
      Built old ob (buildTree old ob) g ∧
      ps = qs ++ l.map (fun p => .opaqueChanged (path p.1) (Html.serL false (new.arena.forest p.2))) ∧
      (∀ a b, (a, b) ∈ l ↔ ChangedOpaque hashNode old new ob nb g a b) ∧
      ∀ parse D slots, applyLoop parse old.arena (Arena.upd (fun _ => none) 0 (some ob)) qs =
        .ok (D, slots) → ∀ a b, (a, b) ∈ l → Leads D slots (path a) (g a) := by
  obtain ⟨g, qs, l, path, h1, h2, h3, _, h5, h6⟩ := C37_one_report_each_partial h hc hd
  refine ⟨g, qs, l, path, h1, h2, h5, ?_⟩
  intro parse D slots hD a b hab
  obtain ⟨e1, e2⟩ := applyLoop_keepsTree (fun P hP => by
    rcases hk P (by rw [h2]; exact List.mem_append_left _ hP) with h | h
    · rw [h3 P hP] at h; cases h
    · exact h) hD
  rw [e2]
  exact (h6 a b hab).congr e1

/-- Content with two opaque elements. -/
def opaque1 : List Html :=
  [ex "p" [("id", "p")] [ex "u" [] [], ex "v" [] [], ex "w" [] [], .text "one".toList],
    ex "d" [("data-hotmeal-opaque", "")] [ex "b" [] [], .text "x".toList],
    ex "e" [("data-hotmeal-opaque", "")] [.text "y".toList]]
/-- The same with other text, attributes and opaque content. -/
def opaque2 : List Html :=
  [ex "p" [("id", "q")] [ex "u" [] [], ex "v" [] [], ex "w" [] [], .text "two".toList],
    ex "d" [("data-hotmeal-opaque", "")] [ex "i" [] []],
    ex "e" [("data-hotmeal-opaque", "")] [.text "y".toList]]

/-- The hypotheses hold for `opaque1` and `opaque2`: three patches, the last of which is a report. -/
example : Bodies (.ofForest opaque1) (.ofForest opaque2) 2 2 ∧
    NoCollision Shape.node (buildTree (.ofForest opaque1) 2) (diffable (.ofForest opaque2)) 2 ∧
    (match diff Shape.node (.ofForest opaque1) (.ofForest opaque2) with
      | .ok ps => decide (ps.map Patch.isReport = [false, false, true]) &&
        ps.all fun P => P.isReport || P.keepsTree
      | .error _ => false) = true :=
  ⟨⟨⟨ofForest_valid opaque1 (by decide +kernel), by decide +kernel⟩,
    ⟨ofForest_valid opaque2 (by decide +kernel), by decide +kernel⟩, by decide +kernel, by decide +kernel⟩,
    noCollision_shape _ _ _, by decide +kernel⟩

/-- **C37** is violated: the path of a report is the path in the old document. When the opaque element
changes its place the report hits another element; here the `p` gets the content of the `d`, which keeps
its old content. The parser used is right for the only string it is called with. -/
theorem C37_violated_path : ∃ cs ds : List Html, ∃ parse : Str → Document,
    parse "<html><body><div>b</div></body></html>".toList = .ofForest [ex "div" [] [.text "b".toList]] ∧
    (match diff Shape.node (.ofForest cs) (.ofForest ds) with
      | .ok ps => (match applyPatches parse (.ofForest cs) ps with
        | .ok D => decide (D.toBodyHtml = "<d data-hotmeal-opaque=\"\">a</d><p>b</p>".toList)
        | .error _ => false)
      | .error _ => false) = true ∧
    (Document.ofForest ds).toBodyHtml = "<d data-hotmeal-opaque=\"\">b</d><p>q</p>".toList :=
  ⟨[ex "p" [] [.text "q".toList], ex "d" [("data-hotmeal-opaque", "")] [.text "a".toList]],
    [ex "d" [("data-hotmeal-opaque", "")] [.text "b".toList], ex "p" [] [.text "q".toList]],
    fun _ => .ofForest [ex "div" [] [.text "b".toList]], rfl, by decide +kernel, by decide +kernel⟩

/-- **C37** is violated, and with it C01: changed attributes inside an opaque element give no patch at
all, so the old attributes stay. -/
theorem C37_violated_attributes : ∃ cs ds : List Html,
    (match diff Shape.node (.ofForest cs) (.ofForest ds) with
      | .ok ps => ps.isEmpty
      | .error _ => false) = true ∧
    (Document.ofForest cs).toBodyHtml = "<d data-hotmeal-opaque=\"\"><b x=\"1\"></b></d>".toList ∧
    (Document.ofForest ds).toBodyHtml = "<d data-hotmeal-opaque=\"\"><b x=\"2\"></b></d>".toList :=
  ⟨[ex "d" [("data-hotmeal-opaque", "")] [ex "b" [("x", "1")] []]],
    [ex "d" [("data-hotmeal-opaque", "")] [ex "b" [("x", "2")] []]],
    by decide +kernel, by decide +kernel, by decide +kernel⟩

end Hotmeal
