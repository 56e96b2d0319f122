import Verif.Lemmas.Append
import Verif.Props.Block

set_option autoImplicit false
set_option linter.unusedSectionVars false

/-!
# C68: content added at the end, or taken away from the end
-/

namespace Hotmeal

variable {H : Type} [DecidableEq H] {hashNode : HKind → Option Str → List H → H}
  {old new : Document} {ob nb : Nat}

/-- The patch for the attributes of the new body, which is sent whenever there are any. -/
def bodyPatches (d : NodeData) : List Patch :=
  match d.kind with
  | .element _ [] => []
  | .element _ attrs => [.updateProps [0] (attrs.map fun kv => ⟨.attr kv.1, some kv.2⟩)]
  | _ => []

theorem diff_of_convert (h : Comparable old new ob nb) (hn : new.Clear nb)
    (hp : Plan (buildTree old ob) (diffable new) nb
      (diffMatching (oldTree hashNode old ob) (newTree hashNode new nb)))
    {S : Shadow} (hS : Shadow.new (buildTree old ob) 0 = .ok S) {C : Conv} {ps : List Patch}
    (hl : convertLoop (diffable new) (insertedNodes (script hashNode old new ob nb))
      ⟨S, initBToShadow (diffMatching (oldTree hashNode old ob) (newTree hashNode new nb))⟩
      (script hashNode old new ob nb) = .ok (C, ps)) : diff hashNode old new = .ok ps := by
  unfold diff
  rw [h.old.body, h.new.body]
  simp only
  rw [if_neg]
  · have hconv : convertOps (script hashNode old new ob nb) (buildTree old ob) 0 (diffable new)
        (diffMatching (oldTree hashNode old ob) (newTree hashNode new nb)) = .ok ps := by
      unfold convertOps
      simp only [hS, bind, Except.bind, hl]
    have hopq : opaqueChanges (oldTree hashNode old ob) (newTree hashNode new nb) new.arena
          (diffMatching (oldTree hashNode old ob) (newTree hashNode new nb)) = [] := by
      unfold opaqueChanges
      rw [List.filterMap_eq_nil_iff]
      rintro ⟨a, b⟩ hab
      have : (newTree hashNode new nb).isOpaque b = false := hn.tdata (anc_of_diffable (hp.lt a b hab).2)
      simp [this]
    simp only [bind, Except.bind]
    unfold script at hconv
    rw [hconv]
    simp only
    rw [hopq]
    simp [opaquePatches]
  · rw [List.any_eq_true]
    rintro ⟨n, hn, hk⟩
    have hn' := (h.new.sound.arena.wf.mem_descendants _ _).1 hn
    exact TextEdit.no_document h.new n hn' (by simpa using hk)

theorem flatMap_one {α β : Type} {f : α → List β} {x : α} : ∀ {l : List α}, l.Nodup → x ∈ l →
    (∀ y ∈ l, y ≠ x → f y = []) → l.flatMap f = f x := by
  intro l
  induction l with
  | nil => intro _ h; cases h
  | cons y l ih =>
    intro hnd hx hf
    rw [List.flatMap_cons]
    rw [List.nodup_cons] at hnd
    by_cases e : y = x
    · subst e
      have : l.flatMap f = [] := by
        rw [List.flatMap_eq_nil_iff]
        intro z hz
        exact hf z (by simp [hz]) fun e => hnd.1 (e ▸ hz)
      rw [this, List.append_nil]
    · rw [hf y (by simp) e, List.nil_append]
      exact ih hnd.2 (by simpa [Ne.symm e] using hx) fun z hz => hf z (by simp [hz])

theorem flatMap_tail {α β : Type} {f : α → List β} {g : α → β} {l r : List α} (h1 : ∀ x ∈ l, f x = [])
    (h2 : ∀ x ∈ r, f x = [g x]) : (l ++ r).flatMap f = r.map g := by
  rw [List.flatMap_append, List.flatMap_eq_nil_iff.2 h1, List.nil_append, List.map_eq_flatMap]
  exact List.flatMap_congr h2

/-- What an edit script is made of when all matched nodes, except for the roots, are in blocks that are the same. -/
theorem updates_of_blocks {A B : Arena TData} {M : Matching} (hp : Plan A B nb M)
    (hM : M = diffMatching (DiffTree.ofArena hashNode A 0) (DiffTree.ofArena hashNode B nb))
    (htext : (A.data 0).text = (B.data nb).text)
    (hin : ∀ a b, (a, b) ∈ M.pairs → a ≠ 0 → ∃ k x y, Block hashNode A B 0 nb k x y ∧ A.Anc x a) :
    updateOps (DiffTree.ofArena hashNode A 0) (DiffTree.ofArena hashNode B nb) M
      (opaqueDescendants (DiffTree.ofArena hashNode A 0)) (opaqueDescendants (DiffTree.ofArena hashNode B nb)) =
      propOps (DiffTree.ofArena hashNode A 0) (DiffTree.ofArena hashNode B nb) 0 nb ∧
    moveOps (DiffTree.ofArena hashNode A 0) (DiffTree.ofArena hashNode B nb) M
      (opaqueDescendants (DiffTree.ofArena hashNode A 0)) (opaqueDescendants (DiffTree.ofArena hashNode B nb)) =
      [] := by
  have hav : ∀ op ∈ scriptOf hashNode A B 0 nb M, ∀ k x y, Block hashNode A B 0 nb k x y →
      op.Avoids (fun n => A.Anc 0 n → Plan.Old A n → A.Anc x n) (B.Anc y) nb k := by
    intro op hop k x y hbl
    subst hM
    exact hbl.avoids hp op hop
  constructor
  · unfold updateOps
    rw [flatMap_one hp.nd hp.root]
    · have h1 : ¬ (0 ∈ opaqueDescendants (DiffTree.ofArena hashNode A 0) ∨
          nb ∈ opaqueDescendants (DiffTree.ofArena hashNode B nb)) := by
        rw [mem_opaqueDescendants hashNode A 0 hp.aw, mem_opaqueDescendants hashNode B nb hp.bw]
        have := hp.clear 0 nb hp.root
        simp [this.1, this.2]
      rw [if_neg h1]
      have : textOps (DiffTree.ofArena hashNode A 0) (DiffTree.ofArena hashNode B nb) 0 nb = [] := by
        unfold textOps
        rw [if_pos]
        exact htext
      rw [this, List.nil_append]
    · rintro ⟨a, b⟩ hab hne
      have ha : a ≠ 0 := by
        rintro rfl
        exact hne (by rw [hp.fn1 hab hp.root])
      obtain ⟨k, x, y, hbl, hxa⟩ := hin a b hab ha
      rw [List.eq_nil_iff_forall_not_mem]
      intro op hop
      have hop' : op ∈ scriptOf hashNode A B 0 nb M := by
        unfold scriptOf generateEditScript
        simp only [List.mem_append]
        exact .inl (.inl (.inl (List.mem_flatMap.2 ⟨(a, b), hab, hop⟩)))
      have := hav op hop' k x y hbl
      split at hop
      · cases hop
      · rcases List.mem_append.1 hop with hop | hop
        · unfold textOps at hop
          split at hop
          · cases hop
          · split at hop
            · rw [List.mem_singleton] at hop
              subst hop
              exact this fun _ _ => hxa
            · cases hop
        · rw [Plan.propOps_eq] at hop
          split at hop
          · rw [List.mem_singleton] at hop
            subst hop
            exact this fun _ _ => hxa
          · cases hop
  · rw [List.eq_nil_iff_forall_not_mem]
    intro op hop
    have hop' : op ∈ scriptOf hashNode A B 0 nb M := by
      unfold scriptOf generateEditScript
      simp only [List.mem_append]
      exact .inl (.inr hop)
    obtain ⟨a, b, pa, pb, h1, _, _, h4, _, _, rfl⟩ := mem_moveOps.1 hop
    have ha : a ≠ 0 := by
      rintro rfl
      have h4 : A.parent 0 = some pa := h4
      rw [hp.a0] at h4; cases h4
    obtain ⟨k, x, y, hbl, hxa⟩ := hin a b h1 ha
    exact (hav _ hop' k x y hbl).1 fun _ _ => hxa

theorem Attrs.diffLoop_nil : ∀ (l : Attrs) (o f : Bool), (Attrs.diffLoop [] o f l) =
    l.map fun kv => ⟨.attr kv.1, .different kv.2⟩ := by
  intro l
  induction l with
  | nil => intro o f; rfl
  | cons kv l ih =>
    intro o f
    obtain ⟨k, v⟩ := kv
    simp only [Attrs.diffLoop, List.map_cons, ih]
    have : ¬ (Attrs.find [] k = some v) := by
      intro e; cases e
    simp [this]

/-- The operation for the attributes of the body, and its patch. -/
theorem convert_body {A B : Arena TData} {ins : List Nat} {C : Conv} {d : NodeData} {tag : Str} {attrs : Attrs}
    (hd : d.kind = .element tag attrs) (hA : (A.data 0).props = []) (hB : B.data nb = tdataOf d)
    (hC : C.shadow.computePath 0 = [0]) :
    convertLoop B ins C (propOps (DiffTree.ofArena hashNode A 0) (DiffTree.ofArena hashNode B nb) 0 nb) =
      .ok (C, bodyPatches d) := by
  have h1 : (DiffTree.ofArena hashNode A 0).props 0 = [] := hA
  have h2 : (DiffTree.ofArena hashNode B nb).props nb = attrs := by
    show (B.data nb).props = attrs
    rw [hB]
    simp only [tdataOf, hd]
  unfold propOps bodyPatches
  rw [h1, h2, hd]
  cases attrs with
  | nil => rfl
  | cons kv rest =>
    simp only [List.isEmpty_nil, List.isEmpty_cons, Bool.and_false, Bool.false_eq_true, if_false]
    have : Attrs.diff [] (kv :: rest) = (kv :: rest).map fun kv => ⟨.attr kv.1, .different kv.2⟩ := by
      unfold Attrs.diff
      exact Attrs.diffLoop_nil _ _ _
    rw [this, if_pos (by simp [PropFinal.isDifferent])]
    show (convertOp B ins C _ >>= _) = _
    simp only [convertOp, hC, List.map_map]
    rfl

/-- The path of the root of the tree. -/
theorem ShadowInit.path {A : Arena TData} {S : Shadow} (h : ShadowInit A S) (hpos : 0 < A.next) :
    S.IsPath 0 [0] ∧ ¬ S.IsSlot 0 ∧ (0 : Nat) ≠ S.superRoot := by
  have h0 : S.arena.parent 0 = some (A.next + 1) := by rw [h.parent, if_pos rfl]
  have h1 : S.IsSlot (A.next + 1) := by
    unfold Shadow.IsSlot
    rw [h.parent, if_neg (by omega), if_pos rfl, h.super]
  refine ⟨?_, ?_, by rw [h.super]; omega⟩
  · have := Shadow.IsPath.base h0 h1
    rw [h.super, h.children, if_neg (by omega), if_pos rfl] at this
    simpa [Arena.posIn] using this
  · unfold Shadow.IsSlot
    rw [h0, h.super]
    intro e
    have := Option.some.inj e
    omega

theorem anc_child {α : Type} {A : Arena α} (hA : A.WF) {r n : Nat} (h : A.Anc r n) (hne : n ≠ r) :
    ∃ k c : Nat, (A.children r)[k]? = some c ∧ A.Anc c n := by
  rcases h.first with e | ⟨c, hc, hcn⟩
  · exact absurd e hne
  · obtain ⟨k, hk⟩ := List.mem_iff_getElem?.1 ((hA.mem_iff _ _).2 hc)
    exact ⟨k, c, hk, hcn⟩

theorem Comparable.built_inj (h : Comparable old new ob nb) (ho : old.Clear ob) : ∃ g,
    Built old ob (buildTree old ob) g ∧
    ∀ n m, (buildTree old ob).Anc 0 n → (buildTree old ob).Anc 0 m → g n = g m → n = m := by
  obtain ⟨f, hd, hbt⟩ := h.docRel_old
  refine ⟨f, hbt, fun n m h1 h2 => hd.inj hbt.wf h1 h2 ?_ ?_⟩ <;>
  · refine ⟨hbt.lt_of_anc ‹_›, ?_⟩
    rintro ⟨o, h1, h2, _⟩
    by_cases e : o = 0
    · rw [e, hbt.rdata] at h2; cases h2
    · rw [hbt.data _ (hbt.lt_of_anc h1) e, ho.tdata (hbt.ganc h.old.sound.arena.wf h1)] at h2
      cases h2

/-- The script when every child of the old body has a counterpart. -/
theorem script_appending (h : Comparable old new ob nb)
    (hc : NoCollision hashNode (buildTree old ob) (diffable new) nb) (ho : old.Clear ob) (hn : new.Clear nb)
    (hs : ∀ k, k < (old.arena.children ob).length → ∃ x y, SameBlock old new ob nb k x y) :
    script hashNode old new ob nb =
      propOps (oldTree hashNode old ob) (newTree hashNode new nb) 0 nb ++
      (((new.arena.children nb).drop (old.arena.children ob).length).flatMap (diffable new).descendants).map
        (insOp (diffable new)) := by
  have hof := opaqueFixed_of_clear (hashNode := hashNode) h ho hn
  have hBw : (diffable new).WF := Built.diffable_wf h.new.sound.arena.wf
  obtain ⟨g, hb, hinj⟩ := h.built_inj ho
  have hp := h.plan hashNode hc hof.agree hb
  have hlen : ((buildTree old ob).children 0).length = (old.arena.children ob).length := by
    have := hb.kids 0 hb.pos
    rw [hb.g0] at this
    rw [this, List.length_map]
  have hkid : ∀ k a, ((buildTree old ob).children 0)[k]? = some a →
      ∃ y, Block hashNode (buildTree old ob) (diffable new) 0 nb k a y := by
    intro k a ha
    have hk := (List.getElem?_eq_some_iff.1 ha).1
    obtain ⟨x, y, hxy⟩ := hs k (by omega)
    obtain ⟨a', rfl, hbl⟩ := hxy.block h hc ho hn hb
    have := hbl.kidA
    rw [ha] at this
    cases this
    exact ⟨y, hbl⟩
  have hin : ∀ a, (buildTree old ob).Anc 0 a → a ≠ 0 → ∃ k x y,
      Block hashNode (buildTree old ob) (diffable new) 0 nb k x y ∧ (buildTree old ob).Anc x a := by
    intro a ha h0
    obtain ⟨k, c, h1, h2⟩ := anc_child hb.wf ha h0
    obtain ⟨y, hy⟩ := hkid k c h1
    exact ⟨k, c, y, hy, h2⟩
  have hmat : ∀ a, (buildTree old ob).Anc 0 a → a ≠ 0 → ∃ k x y b,
      Block hashNode (buildTree old ob) (diffable new) 0 nb k x y ∧ Corr (buildTree old ob) (diffable new) x y a b ∧
      (a, b) ∈ (diffMatching (oldTree hashNode old ob) (newTree hashNode new nb)).pairs := by
    intro a ha h0
    obtain ⟨k, x, y, hbl, hx⟩ := hin a ha h0
    obtain ⟨b, hb'⟩ := hbl.total hb.wf hx (.step (hbl.parA hb.wf hBw) .refl)
      (ho.not_inside_built hb h.old.sound.arena.wf ha)
    exact ⟨k, x, y, b, hbl, hb', hbl.matched hb.wf hBw hb'⟩
  obtain ⟨_, oa, hok⟩ := Document.body_spec h.old.body
  obtain ⟨_, na, hnk⟩ := Document.body_spec h.new.body
  have htext : ((buildTree old ob).data 0).text = ((diffable new).data nb).text := by
    rw [hb.rdata]
    show none = (tdataOf (new.arena.data nb)).text
    simp only [tdataOf, hnk]
  obtain ⟨hu, hm⟩ := updates_of_blocks hp rfl htext fun a b hab h0 => hin a (hp.areach a (hp.lt a b hab).1) h0
  have hdel : deleteOps (oldTree hashNode old ob) (diffMatching (oldTree hashNode old ob) (newTree hashNode new nb))
      (opaqueDescendants (oldTree hashNode old ob)) = [] := by
    rw [List.eq_nil_iff_forall_not_mem]
    intro op hop
    obtain ⟨a, h1, h2, _, rfl⟩ := mem_deleteOps.1 hop
    have h2 := Matching.containsA_false.1 h2
    have ha : (buildTree old ob).Anc 0 a := by
      have h1 : a ∈ (buildTree old ob).postOrder 0 := h1
      rw [hb.wf.postOrder_eq hb.pos] at h1
      exact (hb.wf.mem_post _ _).1 h1
    by_cases h0 : a = 0
    · subst h0
      rw [(hp.getB _ _).2 hp.root] at h2
      cases h2
    · obtain ⟨_, _, _, b, _, _, hab⟩ := hmat a ha h0
      rw [(hp.getB _ _).2 hab] at h2
      cases h2
  have hopq : ∀ b, b ∉ opaqueDescendants (newTree hashNode new nb) := by
    intro b hb'
    obtain ⟨o, h1, h2, _⟩ := (mem_opaqueDescendants hashNode (diffable new) nb hBw b).1 hb'
    have := hn.tdata (anc_of_diffable h1)
    have h2 : (tdataOf (new.arena.data o)).props.isOpaque = true := h2
    rw [this] at h2; cases h2
  have hins : insertOps (newTree hashNode new nb) (diffMatching (oldTree hashNode old ob) (newTree hashNode new nb))
      (opaqueDescendants (newTree hashNode new nb)) =
      (((new.arena.children nb).drop (old.arena.children ob).length).flatMap (diffable new).descendants).map
        (insOp (diffable new)) := by
    have hcon : ∀ a b, (a, b) ∈ (diffMatching (oldTree hashNode old ob) (newTree hashNode new nb)).pairs →
        (diffMatching (oldTree hashNode old ob) (newTree hashNode new nb)).containsB b = true := by
      intro a b hab
      cases e : (diffMatching (oldTree hashNode old ob) (newTree hashNode new nb)).containsB b with
      | true => rfl
      | false =>
        have := Matching.containsB_false.1 e
        rw [(hp.getA _ _).2 hab] at this
        cases this
    unfold insertOps
    show ((diffable new).descendants nb).flatMap _ = _
    rw [hBw.descendants_flatMap, List.flatMap_cons, if_pos (hcon 0 nb hp.root), List.nil_append]
    show ((new.arena.children nb).flatMap _).flatMap _ = _
    rw [← List.take_append_drop (old.arena.children ob).length (new.arena.children nb), List.flatMap_append,
      List.take_append_drop]
    refine flatMap_tail ?_ ?_
    · intro b hb'
      obtain ⟨c, hc1, hc2⟩ := List.mem_flatMap.1 hb'
      obtain ⟨k, hk⟩ := List.mem_iff_getElem?.1 hc1
      have hk' := (List.getElem?_eq_some_iff.1 hk).1
      rw [List.length_take] at hk'
      rw [List.getElem?_take_of_lt (by omega)] at hk
      obtain ⟨x, y, hxy⟩ := hs k (by omega)
      obtain ⟨a', rfl, hbl⟩ := hxy.block h hc ho hn hb
      have hyc := hxy.kidNew
      rw [hk] at hyc
      cases hyc
      obtain ⟨a, ha⟩ := hbl.total' hBw ((hBw.mem_descendants _ _).1 hc2) (.step (hbl.parB hb.wf hBw) .refl)
        hn.not_inside
      rw [if_pos (hcon a b (hbl.matched hb.wf hBw ha))]
    · intro b hb'
      obtain ⟨c, hc1, hc2⟩ := List.mem_flatMap.1 hb'
      obtain ⟨k, hk⟩ := List.mem_iff_getElem?.1 hc1
      rw [List.getElem?_drop] at hk
      have hpc : (diffable new).parent c = some nb := (hBw.mem_iff _ _).1 (List.mem_of_getElem? hk)
      have hcb := (hBw.mem_descendants _ _).1 hc2
      have hno : ∀ a, (a, b) ∉ (diffMatching (oldTree hashNode old ob) (newTree hashNode new nb)).pairs := by
        intro a hab
        by_cases h0 : a = 0
        · subst h0
          have := hp.fn1 hab hp.root
          subst this
          exact not_anc_parent hBw hpc hcb
        · obtain ⟨k', x, y, b', hbl, hcorr, hab'⟩ := hmat a (hp.areach a (hp.lt a b hab).1) h0
          have := hp.fn1 hab hab'
          subst this
          have := hBw.siblings_disjoint hpc (hbl.parB hb.wf hBw) hcb (hcorr.ancB hBw)
          subst this
          have h3 : (old.arena.children ob).length + k = k' := List.nodup_getElem?_inj (hBw.nodup nb) hk hbl.kidB
          have h4 := (List.getElem?_eq_some_iff.1 hbl.kidA).1
          omega
      have hne : (diffMatching (oldTree hashNode old ob) (newTree hashNode new nb)).containsB b = false := by
        rw [Matching.containsB_false]
        cases e : (diffMatching (oldTree hashNode old ob) (newTree hashNode new nb)).getA b with
        | none => rfl
        | some a => exact absurd ((hp.getA _ _).1 e) (hno a)
      obtain ⟨pb, hpb⟩ : ∃ pb, (diffable new).parent b = some pb := by
        rcases hcb.cases' with rfl | ⟨p, hp, _⟩
        · exact ⟨_, hpc⟩
        · exact ⟨_, hp⟩
      have hpb' : (newTree hashNode new nb).parent b = some pb := hpb
      simp only [hne, hpb', hopq b, if_false, Bool.false_eq_true]
      congr 1
      have hpos : (newTree hashNode new nb).position b = Arena.posIn ((diffable new).children pb) b := by
        show (match (diffable new).parent b with
          | none => 0
          | some p => Arena.posIn ((diffable new).children p) b) = _
        rw [hpb]
      simp only [insOp, hpb, Option.getD_some, hpos]
      rfl
  unfold script generateEditScript
  simp only
  rw [hdel, hins, List.append_nil]
  have hu' : updateOps (oldTree hashNode old ob) (newTree hashNode new nb)
    (diffMatching (oldTree hashNode old ob) (newTree hashNode new nb))
    (opaqueDescendants (oldTree hashNode old ob)) (opaqueDescendants (newTree hashNode new nb)) = _ := hu
  have hm' : moveOps (oldTree hashNode old ob) (newTree hashNode new nb)
    (diffMatching (oldTree hashNode old ob) (newTree hashNode new nb))
    (opaqueDescendants (oldTree hashNode old ob)) (opaqueDescendants (newTree hashNode new nb)) = _ := hm
  rw [hu', hm', List.append_nil]
  rfl

/-- **C68.** When content is added at the end of the page, and everything else is as it was and recognisable by
its content, the patches are the insertions of the nodes of the new content, each with its final place, in the
order in which they stand on the page, and nothing else; but if the body has attributes, these are sent again. -/
theorem C68_appending_partial (h : Comparable old new ob nb)
    (hc : NoCollision hashNode (buildTree old ob) (diffable new) nb) (ho : old.Clear ob) (hn : new.Clear nb)
    (hs : ∀ k, k < (old.arena.children ob).length → ∃ x y, SameBlock old new ob nb k x y) :
    diff hashNode old new = .ok (bodyPatches (new.arena.data nb) ++
      Html.plantingsL [0] (old.arena.forest ob).length
        ((new.arena.forest nb).drop (old.arena.forest ob).length)) := by
  have hof := opaqueFixed_of_clear (hashNode := hashNode) h ho hn
  have hBw : (diffable new).WF := Built.diffable_wf h.new.sound.arena.wf
  obtain ⟨g, hb, hinj⟩ := h.built_inj ho
  have hp := h.plan hashNode hc hof.agree hb
  have hscr := script_appending h hc ho hn hs
  have hlen : ((buildTree old ob).children 0).length = (old.arena.children ob).length := by
    have := hb.kids 0 hb.pos
    rw [hb.g0] at this
    rw [this, List.length_map]
  obtain ⟨S, hS, hinit⟩ := Shadow.new_init hb.wf hb.pos hb.root
  obtain ⟨hq, hsl, hsup⟩ := hinit.path hb.pos
  obtain ⟨_, na, hnk⟩ := Document.body_spec h.new.body
  have hle : (old.arena.children ob).length ≤ (new.arena.children nb).length := by
    by_cases e : (old.arena.children ob).length = 0
    · omega
    · obtain ⟨x, y, hxy⟩ := hs ((old.arena.children ob).length - 1) (by omega)
      have := (List.getElem?_eq_some_iff.1 hxy.kidNew).1
      omega
  have e1 := convert_body (hashNode := hashNode) (A := buildTree old ob) (B := diffable new) (nb := nb)
    (ins := insertedNodes (script hashNode old new ob nb))
    (C := ⟨S, initBToShadow (diffMatching (oldTree hashNode old ob) (newTree hashNode new nb))⟩)
    hnk (by rw [hb.rdata]) rfl (hq.computePath_eq hinit.shape.wf)
  have hmem : ∀ c ∈ (new.arena.children nb).drop (old.arena.children ob).length,
      ∀ n ∈ (diffable new).descendants c, n ∈ insertedNodes (script hashNode old new ob nb) := by
    intro c hc n hn
    rw [hscr]
    unfold insertedNodes
    rw [List.filterMap_append, List.mem_append]
    refine .inr (List.mem_filterMap.2 ⟨insOp (diffable new) n, List.mem_map_of_mem ?_, rfl⟩)
    exact List.mem_flatMap.2 ⟨c, hc, hn⟩
  obtain ⟨S', bts', e2, _, _⟩ := plants_list (D := new.arena) hBw (pb := nb)
    ((new.arena.children nb).drop (old.arena.children ob).length)
    ((new.arena.children nb).take (old.arena.children ob).length)
    (List.take_append_drop _ _).symm
    (fun c _ => plants h.new.sound.arena hBw (fun _ => rfl) (fun _ => rfl) (fun _ => rfl) _ c)
    S (initBToShadow (diffMatching (oldTree hashNode old ob) (newTree hashNode new nb))) 0 [0]
    ⟨hinit.shape.wf, hinit.shape.super_lt, by rw [hp.initBToShadow_eq]; exact (hp.getA _ _).2 hp.root, hq, hsl, hsup⟩
    (by
      have := hb.pos
      rw [hinit.children, if_neg (by omega), if_neg (by omega), hlen, List.length_take]
      omega) hmem
  refine diff_of_convert h hn hp hS (C := ⟨S', bts'⟩) ?_
  have := convertLoop_two e1 e2
  rw [List.length_take, Nat.min_eq_left hle] at this
  unfold Arena.forest
  rw [List.length_map, ← List.map_drop, ← this]
  exact congrArg (convertLoop _ _ _) hscr

/-- The script when every child of the new body has a counterpart. -/
theorem script_truncating (h : Comparable old new ob nb)
    (hc : NoCollision hashNode (buildTree old ob) (diffable new) nb) (ho : old.Clear ob) (hn : new.Clear nb)
    (hs : ∀ k, k < (new.arena.children nb).length → ∃ x y, SameBlock old new ob nb k x y) :
    script hashNode old new ob nb =
      propOps (oldTree hashNode old ob) (newTree hashNode new nb) 0 nb ++
      ((((buildTree old ob).children 0).drop (new.arena.children nb).length).flatMap (buildTree old ob).post).map
        .delete := by
  have hof := opaqueFixed_of_clear (hashNode := hashNode) h ho hn
  have hBw : (diffable new).WF := Built.diffable_wf h.new.sound.arena.wf
  obtain ⟨g, hb, hinj⟩ := h.built_inj ho
  have hp := h.plan hashNode hc hof.agree hb
  have hkid : ∀ k y, (new.arena.children nb)[k]? = some y →
      ∃ x, Block hashNode (buildTree old ob) (diffable new) 0 nb k x y := by
    intro k y hy
    obtain ⟨x, y', hxy⟩ := hs k (List.getElem?_eq_some_iff.1 hy).1
    obtain ⟨a', rfl, hbl⟩ := hxy.block h hc ho hn hb
    have := hxy.kidNew
    rw [hy] at this
    cases this
    exact ⟨a', hbl⟩
  have hmat : ∀ b, (diffable new).Anc nb b → b ≠ nb → ∃ k x y a,
      Block hashNode (buildTree old ob) (diffable new) 0 nb k x y ∧ Corr (buildTree old ob) (diffable new) x y a b ∧
      (a, b) ∈ (diffMatching (oldTree hashNode old ob) (newTree hashNode new nb)).pairs := by
    intro b hb0 h0
    obtain ⟨k, y, h1, h2⟩ := anc_child hBw hb0 h0
    obtain ⟨x, hbl⟩ := hkid k y h1
    obtain ⟨a, ha⟩ := hbl.total' hBw h2 (.step (hbl.parB hb.wf hBw) .refl) hn.not_inside
    exact ⟨k, x, y, a, hbl, ha, hbl.matched hb.wf hBw ha⟩
  obtain ⟨_, na, hnk⟩ := Document.body_spec h.new.body
  have htext : ((buildTree old ob).data 0).text = ((diffable new).data nb).text := by
    rw [hb.rdata]
    show none = (tdataOf (new.arena.data nb)).text
    simp only [tdataOf, hnk]
  obtain ⟨hu, hm⟩ := updates_of_blocks hp rfl htext fun a b hab h0 => by
    have hne : b ≠ nb := by
      rintro rfl
      exact h0 (hp.fn2 hab hp.root)
    obtain ⟨k, x, y, a', hbl, hcorr, hab'⟩ := hmat b (hp.lt a b hab).2 hne
    have := hp.fn2 hab hab'
    subst this
    exact ⟨k, x, y, hbl, hcorr.ancA hb.wf⟩
  have hins : insertOps (newTree hashNode new nb) (diffMatching (oldTree hashNode old ob) (newTree hashNode new nb))
      (opaqueDescendants (newTree hashNode new nb)) = [] := by
    rw [List.eq_nil_iff_forall_not_mem]
    intro op hop
    obtain ⟨b, pb, h1, h2, h3, _, rfl⟩ := mem_insertOps.1 hop
    have h2 := Matching.containsB_false.1 h2
    have hb0 : (diffable new).Anc nb b := (hBw.mem_descendants _ _).1 h1
    by_cases h0 : b = nb
    · subst h0
      rw [(hp.getA _ _).2 hp.root] at h2
      cases h2
    · obtain ⟨_, _, _, a, _, _, hab⟩ := hmat b hb0 h0
      rw [(hp.getA _ _).2 hab] at h2
      cases h2
  have hopq : ∀ a, a ∉ opaqueDescendants (oldTree hashNode old ob) := by
    intro a ha
    obtain ⟨o, h1, h2, _⟩ := (mem_opaqueDescendants hashNode (buildTree old ob) 0 hb.wf a).1 ha
    by_cases e : o = 0
    · rw [e, hb.rdata] at h2; cases h2
    · rw [hb.data _ (hb.lt_of_anc h1) e, ho.tdata (hb.ganc h.old.sound.arena.wf h1)] at h2
      cases h2
  have hdel : deleteOps (oldTree hashNode old ob) (diffMatching (oldTree hashNode old ob) (newTree hashNode new nb))
      (opaqueDescendants (oldTree hashNode old ob)) =
      ((((buildTree old ob).children 0).drop (new.arena.children nb).length).flatMap (buildTree old ob).post).map
        .delete := by
    have hcon : ∀ a b, (a, b) ∈ (diffMatching (oldTree hashNode old ob) (newTree hashNode new nb)).pairs →
        (diffMatching (oldTree hashNode old ob) (newTree hashNode new nb)).containsA a = true := by
      intro a b hab
      cases e : (diffMatching (oldTree hashNode old ob) (newTree hashNode new nb)).containsA a with
      | true => rfl
      | false =>
        have := Matching.containsA_false.1 e
        rw [(hp.getB _ _).2 hab] at this
        cases this
    unfold deleteOps
    have hpo : (oldTree hashNode old ob).postOrder = (buildTree old ob).post 0 := hb.wf.postOrder_eq hb.pos
    rw [hpo, hb.wf.post_eq, List.flatMap_append, List.flatMap_singleton, if_pos (hcon 0 nb hp.root), List.append_nil]
    rw [← List.take_append_drop (new.arena.children nb).length ((buildTree old ob).children 0), List.flatMap_append,
      List.take_append_drop]
    refine flatMap_tail ?_ ?_
    · intro a ha
      obtain ⟨c, hc1, hc2⟩ := List.mem_flatMap.1 ha
      obtain ⟨k, hk⟩ := List.mem_iff_getElem?.1 hc1
      have hk' := (List.getElem?_eq_some_iff.1 hk).1
      rw [List.length_take] at hk'
      rw [List.getElem?_take_of_lt (by omega)] at hk
      obtain ⟨x, hbl⟩ := hkid k _ (List.getElem?_eq_getElem (by omega))
      have hyc := hbl.kidA
      rw [hk] at hyc
      cases hyc
      obtain ⟨b, hb'⟩ := hbl.total hb.wf ((hb.wf.mem_post _ _).1 hc2) (.step (hbl.parA hb.wf hBw) .refl)
        (ho.not_inside_built hb h.old.sound.arena.wf
          ((Arena.Anc.step (hbl.parA hb.wf hBw) .refl).trans ((hb.wf.mem_post _ _).1 hc2)))
      rw [if_pos (hcon a b (hbl.matched hb.wf hBw hb'))]
    · intro a ha
      obtain ⟨c, hc1, hc2⟩ := List.mem_flatMap.1 ha
      obtain ⟨k, hk⟩ := List.mem_iff_getElem?.1 hc1
      rw [List.getElem?_drop] at hk
      have hpc : (buildTree old ob).parent c = some 0 := (hb.wf.mem_iff _ _).1 (List.mem_of_getElem? hk)
      have hcb := (hb.wf.mem_post _ _).1 hc2
      have hno : ∀ b, (a, b) ∉ (diffMatching (oldTree hashNode old ob) (newTree hashNode new nb)).pairs := by
        intro b hab
        by_cases h0 : b = nb
        · subst h0
          have := hp.fn2 hab hp.root
          subst this
          exact not_anc_parent hb.wf hpc hcb
        · obtain ⟨k', x, y, a', hbl, hcorr, hab'⟩ := hmat b (hp.lt a b hab).2 h0
          have := hp.fn2 hab hab'
          subst this
          have := hb.wf.siblings_disjoint hpc (hbl.parA hb.wf hBw) hcb (hcorr.ancA hb.wf)
          subst this
          have h3 : (new.arena.children nb).length + k = k' :=
            List.nodup_getElem?_inj (hb.wf.nodup 0) hk hbl.kidA
          have h4 : k' < (new.arena.children nb).length := (List.getElem?_eq_some_iff.1 hbl.kidB).1
          omega
      have hne : (diffMatching (oldTree hashNode old ob) (newTree hashNode new nb)).containsA a = false := by
        rw [Matching.containsA_false]
        cases e : (diffMatching (oldTree hashNode old ob) (newTree hashNode new nb)).getB a with
        | none => rfl
        | some b => exact absurd ((hp.getB _ _).1 e) (hno b)
      simp only [hne, hopq a, if_false, Bool.false_eq_true]
  unfold script generateEditScript
  simp only
  rw [hdel, hins, List.append_nil]
  have hu' : updateOps (oldTree hashNode old ob) (newTree hashNode new nb)
    (diffMatching (oldTree hashNode old ob) (newTree hashNode new nb))
    (opaqueDescendants (oldTree hashNode old ob)) (opaqueDescendants (newTree hashNode new nb)) = _ := hu
  have hm' : moveOps (oldTree hashNode old ob) (newTree hashNode new nb)
    (diffMatching (oldTree hashNode old ob) (newTree hashNode new nb))
    (opaqueDescendants (oldTree hashNode old ob)) (opaqueDescendants (newTree hashNode new nb)) = _ := hm
  rw [hu', hm', List.append_nil]
  rfl

/-- **C68.** When content is taken away from the end of the page, and everything else stays as it was and is
recognisable by its content, the patches are the removals of the nodes of that content, and nothing else; but if
the body has attributes, these are sent again. -/
theorem C68_truncating_partial (h : Comparable old new ob nb)
    (hc : NoCollision hashNode (buildTree old ob) (diffable new) nb) (ho : old.Clear ob) (hn : new.Clear nb)
    (hs : ∀ k, k < (new.arena.children nb).length → ∃ x y, SameBlock old new ob nb k x y) :
    diff hashNode old new = .ok (bodyPatches (new.arena.data nb) ++
      Html.removalsL [0] (new.arena.forest nb).length
        ((old.arena.forest ob).drop (new.arena.forest nb).length)) := by
  have hof := opaqueFixed_of_clear (hashNode := hashNode) h ho hn
  have hBw : (diffable new).WF := Built.diffable_wf h.new.sound.arena.wf
  obtain ⟨g, hb, hinj⟩ := h.built_inj ho
  have hp := h.plan hashNode hc hof.agree hb
  have hscr := script_truncating h hc ho hn hs
  have hch : old.arena.children ob = ((buildTree old ob).children 0).map g := by
    have := hb.kids 0 hb.pos
    rw [hb.g0] at this
    exact this
  obtain ⟨S, hS, hinit⟩ := Shadow.new_init hb.wf hb.pos hb.root
  obtain ⟨hq, hsl, hsup⟩ := hinit.path hb.pos
  obtain ⟨_, na, hnk⟩ := Document.body_spec h.new.body
  have hle : (new.arena.children nb).length ≤ ((buildTree old ob).children 0).length := by
    have hl : (old.arena.children ob).length = ((buildTree old ob).children 0).length := by rw [hch, List.length_map]
    by_cases e : (new.arena.children nb).length = 0
    · omega
    · obtain ⟨x, y, hxy⟩ := hs ((new.arena.children nb).length - 1) (by omega)
      have := (List.getElem?_eq_some_iff.1 hxy.kidOld).1
      omega
  have e1 := convert_body (hashNode := hashNode) (A := buildTree old ob) (B := diffable new) (nb := nb)
    (ins := insertedNodes (script hashNode old new ob nb))
    (C := ⟨S, initBToShadow (diffMatching (oldTree hashNode old ob) (newTree hashNode new nb))⟩)
    hnk (by rw [hb.rdata]) rfl (hq.computePath_eq hinit.shape.wf)
  have hkids : ∀ n, (buildTree old ob).Anc 0 n → S.arena.children n = (buildTree old ob).children n := by
    intro n hn
    have := hb.lt_of_anc hn
    rw [hinit.children, if_neg (by omega), if_neg (by omega)]
  obtain ⟨S', e2, _⟩ := wilts_list (B := diffable new) (D := old.arena) (g := g)
    (ins := insertedNodes (script hashNode old new ob nb)) hb.wf (a := 0)
    (((buildTree old ob).children 0).drop (new.arena.children nb).length)
    (((buildTree old ob).children 0).take (new.arena.children nb).length)
    (List.take_append_drop _ _).symm
    (fun c hc => by
      have hpc := (hb.wf.mem_iff _ _).1 (List.mem_of_mem_drop hc)
      refine wilts h.old.sound.arena hb.wf (r := 0) (fun n hn _ => hb.kids n (hb.lt_of_anc hn))
        (fun n hn h0 => ?_) _ c (.step hpc .refl) ?_
      · exact TextEdit.no_document h.old _ (hb.ganc h.old.sound.arena.wf hn)
      · rintro rfl
        rw [hb.root] at hpc; cases hpc)
    S (initBToShadow (diffMatching (oldTree hashNode old ob) (newTree hashNode new nb))) [0] hinit.shape hq hsl
    (by
      intro i c hc
      rw [hkids 0 .refl]
      rw [List.getElem?_drop] at hc
      rw [List.length_take, Nat.min_eq_left hle]
      exact hc)
    (fun c hc n hn => hkids n ((Arena.Anc.step ((hb.wf.mem_iff _ _).1 (List.mem_of_mem_drop hc)) .refl).trans hn))
  refine diff_of_convert h hn hp hS (C := ⟨S', initBToShadow (diffMatching (oldTree hashNode old ob) (newTree hashNode new nb))⟩) ?_
  have := convertLoop_two e1 e2
  rw [List.length_take, Nat.min_eq_left hle] at this
  unfold Arena.forest
  rw [List.length_map, ← List.map_drop, hch, ← List.map_drop, List.map_map]
  exact (congrArg (convertLoop _ _ _) hscr).trans this


theorem ancestorFree_of_still {B : Arena TData} {ins : List Nat} : ∀ (ops : List EditOp) (C : Conv),
    (∀ op ∈ ops, op.sort ≠ .move) → ancestorFree B ins C ops = true := by
  intro ops
  induction ops with
  | nil => intro C _; rfl
  | cons op ops ih =>
    intro C h
    have h1 := h op (List.mem_cons_self ..)
    have h2 := fun C' => ih C' fun o ho => h o (List.mem_cons_of_mem _ ho)
    unfold ancestorFree
    rw [Bool.and_eq_true]
    constructor
    · cases op <;> first | rfl | exact absurd rfl h1
    · split
      · exact h2 _
      · rfl

theorem propOps_still {TA TB : DiffTree H} {a b : Nat} : ∀ op ∈ propOps TA TB a b, op.sort ≠ .move := by
  intro op hop
  rw [Plan.propOps_eq] at hop
  split at hop
  · cases List.mem_singleton.1 hop
    nofun
  · cases hop

/-- **C68.** Whatever is added to or taken from the end of the page, under the same conditions: applying the patches
to the old page gives the new page. This needs no assumption on the moves in the script: there are none. -/
theorem C68_round_trip (parse : Str → Document) (h : Comparable old new ob nb)
    (hc : NoCollision hashNode (buildTree old ob) (diffable new) nb) (ho : old.Clear ob) (hn : new.Clear nb)
    (hs : (∀ k, k < (old.arena.children ob).length → ∃ x y, SameBlock old new ob nb k x y) ∨
      (∀ k, k < (new.arena.children nb).length → ∃ x y, SameBlock old new ob nb k x y)) :
    ∃ ps old', diff hashNode old new = .ok ps ∧ applyPatches parse old ps = .ok old' ∧
      old'.toBodyHtml = new.toBodyHtml ∧
      Html.pruneL old'.bodyForest = Html.pruneL new.bodyForest := by
  refine C01_round_trip_partial parse h hc (opaqueFixed_of_clear h ho hn) (.inl fun S _ => ?_)
  refine ancestorFree_of_still _ _ fun op hop => ?_
  rcases hs with hs | hs
  · rw [script_appending h hc ho hn hs, List.mem_append] at hop
    rcases hop with hop | hop
    · exact propOps_still op hop
    · obtain ⟨b, _, rfl⟩ := List.mem_map.1 hop
      nofun
  · rw [script_truncating h hc ho hn hs, List.mem_append] at hop
    rcases hop with hop | hop
    · exact propOps_still op hop
    · obtain ⟨b, _, rfl⟩ := List.mem_map.1 hop
      nofun

/-! ## Cases that meet the hypotheses -/

/-- A heading and a list of two items. -/
def log1 : List Html :=
  [ex "h1" [] [.text "Log".toList], ex "ul" [("class", "a")] [ex "li" [] [.text "one".toList]]]
/-- The same with two more elements. -/
def log2 : List Html :=
  log1 ++ [ex "p" [("id", "x")] [.text "two".toList, ex "b" [] [.text "bold".toList]], ex "p" [] [.text "end".toList]]

/-- The hypotheses of `C68_appending_partial` and of `C68_truncating_partial` hold for these pages, in the two directions, and there
are patches. -/
example : Comparable (.ofForest log1) (.ofForest log2) 2 2 ∧ Comparable (.ofForest log2) (.ofForest log1) 2 2 ∧
    NoCollision Shape.node (buildTree (.ofForest log1) 2) (diffable (.ofForest log2)) 2 ∧
    NoCollision Shape.node (buildTree (.ofForest log2) 2) (diffable (.ofForest log1)) 2 ∧
    (Document.ofForest log1).Clear 2 ∧ (Document.ofForest log2).Clear 2 ∧
    ((Document.ofForest log1).arena.children 2).length = 2 ∧
    (∀ k, k < 2 → ∃ x y, SameBlock (.ofForest log1) (.ofForest log2) 2 2 k x y) ∧
    (∀ k, k < 2 → ∃ x y, SameBlock (.ofForest log2) (.ofForest log1) 2 2 k x y) ∧
    (match diff Shape.node (.ofForest log1) (.ofForest log2) with
      | .ok ps => decide (ps.length = 6) | .error _ => false) = true ∧
    (match diff Shape.node (.ofForest log2) (.ofForest log1) with
      | .ok ps => decide (ps.length = 6) | .error _ => false) = true := by
  have h1 := ofForest_valid log1 (by decide +kernel)
  have h2 := ofForest_valid log2 (by decide +kernel)
  refine ⟨comparable_ofForest (by decide +kernel) (by decide +kernel),
    comparable_ofForest (by decide +kernel) (by decide +kernel), noCollision_shape _ _ _, noCollision_shape _ _ _,
    clear_of h1.wf (by decide +kernel), clear_of h2.wf (by decide +kernel), by decide +kernel, ?_, ?_,
    by decide +kernel, by decide +kernel⟩
  · intro k hk
    match k, hk with
    | 0, _ => exact ⟨3, 3, sameBlockB_spec h1.wf h2.wf (by decide +kernel)⟩
    | 1, _ => exact ⟨5, 5, sameBlockB_spec h1.wf h2.wf (by decide +kernel)⟩
  · intro k hk
    match k, hk with
    | 0, _ => exact ⟨3, 3, sameBlockB_spec h2.wf h1.wf (by decide +kernel)⟩
    | 1, _ => exact ⟨5, 5, sameBlockB_spec h2.wf h1.wf (by decide +kernel)⟩

/-- Three paragraphs, and the same with one more in front. -/
def tail1 : List Html :=
  [ex "p" [] [.text "a".toList], ex "p" [] [.text "b".toList], ex "p" [] [.text "c".toList]]
def tail2 : List Html := ex "p" [] [.text "n".toList] :: tail1
/-- The same with two more at the end, one of which has the text of the first. -/
def tail3 : List Html := tail1 ++ [ex "p" [] [.text "a".toList], ex "p" [] [.text "d".toList]]

/-- **C68** fails when the added content repeats something on the page: the old first paragraph is moved to the
end, and a new one is put in its place. All blocks of the old page are the same in the new page. -/
theorem C68_violated :
    (∃ l, tail3 = tail1 ++ l) ∧
    Comparable (.ofForest tail1) (.ofForest tail3) 2 2 ∧
    NoCollision Shape.node (buildTree (.ofForest tail1) 2) (diffable (.ofForest tail3)) 2 ∧
    (Document.ofForest tail1).Clear 2 ∧ (Document.ofForest tail3).Clear 2 ∧
    (match diff Shape.node (.ofForest tail1) (.ofForest tail3) with
      | .ok ps => decide (ps.map Patch.paths = [[[0, 0]], [[0, 0, 0]], [[0, 4]], [[0, 4, 0]], [[1], [0, 3]]])
      | .error _ => false) = true := by
  have h1 := ofForest_valid tail1 (by decide +kernel)
  have h2 := ofForest_valid tail3 (by decide +kernel)
  exact ⟨⟨_, rfl⟩, comparable_ofForest (by decide +kernel) (by decide +kernel), noCollision_shape _ _ _,
    clear_of h1.wf (by decide +kernel), clear_of h2.wf (by decide +kernel), by decide +kernel⟩

/-- Content added in front is another matter than content added at the end: every paragraph that follows is moved,
though the insertion alone would have made the new page. -/
theorem C68_prepending_moves :
    (match diff Shape.node (.ofForest tail1) (.ofForest tail2) with
      | .ok ps => decide (ps.map Patch.paths =
          [[[0, 0]], [[0, 0, 0]], [[0, 2], [0, 3]], [[0, 1], [0, 2]], [[1], [0, 1]]] ∧
          countSort .move ps = 3)
      | .error _ => false) = true := by
  decide +kernel

end Hotmeal
