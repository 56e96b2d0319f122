import Verif.Lemmas.Content
import Verif.Props.Same

set_option autoImplicit false
set_option linter.unusedSectionVars false

/-!
# C07: documents without body
-/

namespace Hotmeal

variable {H : Type} [DecidableEq H] {hashNode : HKind → Option Str → List H → H}
  {old new : Document}

/-- The insert patch for some content. -/
def contentPatch (at_ : Path) : InsertContent → Patch
  | .element tag attrs cs => .insertElement at_ tag attrs cs none
  | .text s => .insertText at_ s none
  | .comment s => .insertComment at_ s none

theorem applyPatch_contentPatch (parse : Str → Document) (A : Arena NodeData) (slots : Slots)
    (at_ : Path) (c : InsertContent) : applyPatch parse A slots (contentPatch at_ c) =
      (createInsertContent A c).bind fun r => insertAt r.1 slots at_ r.2 none := by
  cases c with
  | element tag attrs cs =>
    simp only [contentPatch, applyPatch, createInsertContent, bind, Except.bind]
    split <;> rfl
  | text s => rfl
  | comment s => rfl

/-- The content made for a subtree describes that subtree. -/
theorem insertContent_html {D : Arena NodeData} (h : D.Sound) (n : Nat) :
    (D.data n).kind ≠ .document →
    ∃ c, D.fold (insertContentAlg D) n = some c ∧ c.html = D.tree n ∧
      ∀ pos, createInsertPatch D n pos = .ok (contentPatch [0, pos] c) := by
  refine h.wf.induct_down (P := fun n => (D.data n).kind ≠ .document →
    ∃ c, D.fold (insertContentAlg D) n = some c ∧ c.html = D.tree n ∧
      ∀ pos, createInsertPatch D n pos = .ok (contentPatch [0, pos] c)) ?_ n
  intro n ih hk
  rw [h.wf.fold_eq, h.wf.tree_eq]
  have hih : ∀ c ∈ D.children n, ∃ x, D.fold (insertContentAlg D) c = some x ∧ x.html = D.tree c := by
    intro c hc
    obtain ⟨x, h1, h2, _⟩ := ih c hc (h.nodoc c n ((h.wf.mem_iff _ _).1 hc))
    exact ⟨x, h1, h2⟩
  unfold createInsertPatch
  generalize D.fold (insertContentAlg D) = F at hih
  unfold insertContentAlg
  cases e : (D.data n).kind with
  | document => exact absurd e hk
  | text s => exact ⟨_, rfl, rfl, fun _ => rfl⟩
  | comment s => exact ⟨_, rfl, rfl, fun _ => rfl⟩
  | element tag attrs =>
    refine ⟨_, rfl, ?_, fun pos => ?_⟩
    · show Html.element tag attrs (InsertContent.htmlL _) = Html.element tag attrs _
      rw [InsertContent.htmlL_eq]
      congr 1
      unfold Arena.forest
      generalize D.children n = l at hih
      induction l with
      | nil => rfl
      | cons c l ihl =>
        obtain ⟨x, h1, h2⟩ := hih c (by simp)
        rw [List.map_cons, List.filterMap_cons, h1, List.map_cons]
        show (x :: _).map _ = _
        rw [List.map_cons, h2, ihl (fun c hc => hih c (by simp [hc]))]
    · rw [List.filterMap_map]
      rfl

/-- The effect of one insertion at the end of the children of `b`. -/
structure Added (A A' : Arena NodeData) (b x : Nat) (t : Html) : Prop where
  wf : A'.WF
  le : A.next ≤ A'.next
  children : A'.children b = A.children b ++ [x]
  children_ne : ∀ i, i < A.next → i ≠ b → A'.children i = A.children i
  data : ∀ i, i < A.next → A'.data i = A.data i
  trees : ∀ y ∈ A.children b, A'.tree y = A.tree y
  tree : A'.tree x = t

theorem insert_added (parse : Str → Document) {A : Arena NodeData} (h : A.WF) {slots : Slots} {b : Nat}
    (hb : b < A.next) (hs : slots 0 = some b) (c : InsertContent) :
    ∃ A' x, applyPatch parse A slots (contentPatch [0, (A.children b).length] c) = .ok (A', slots) ∧
      Added A A' b x c.html := by
  obtain ⟨A1, m, e1, h1, hm, hm', hmp, htm, _⟩ := createInsertContent_tree c A h
  have hle := h1.le
  have hanc : ¬ A1.Anc m b := by
    intro ha
    have := desc_new h h1.parent hm ha
    omega
  have hnav : navigate A1 slots [0] = .ok b := by simp [navigate, hs, navLoop]
  obtain ⟨D', e2, hD⟩ := insertAt_app (pos := (A.children b).length) h1.wf hnav (by omega) hm' hmp hanc
  have hcb := h1.children b hb
  have hnext : D'.next = A1.next := by rw [hD.next, hcb]; omega
  have hdata : ∀ i, D'.data i = A1.data i := by
    intro i; rw [hD.data, if_neg (by omega)]
  have hch : D'.children b = A.children b ++ [m] := by
    obtain ⟨rest, hr, hc⟩ := hD.children
    rw [hcb, List.drop_length] at hr
    have : rest = [] := by simpa using hr
    subst this
    rw [hc, hcb]
    simp
  have htree : ∀ y, ¬ A1.Anc y b → D'.tree y = A1.tree y := by
    intro y hy
    apply Arena.tree_congr h1.wf hD.wf
    intro z hz
    refine ⟨hD.children_ne z ?_, hdata z⟩
    rintro rfl; exact hy hz
  refine ⟨D', m, ?_, hD.wf, by omega, hch, ?_, ?_, ?_, ?_⟩
  · rw [applyPatch_contentPatch, e1]
    exact e2
  · intro i hi hne
    rw [hD.children_ne i hne, h1.children i hi]
  · intro i hi; rw [hdata, h1.data i hi]
  · intro y hy
    have hyb := (h.mem_iff _ _).1 hy
    have hylt := (h.lt_of_parent _ _ hyb).1
    rw [htree y]
    · apply Arena.tree_congr h h1.wf
      intro z hz
      have hz' := lt_of_anc h hylt hz
      exact ⟨h1.children z hz', h1.data z hz'⟩
    · intro ha
      obtain ⟨r, hr⟩ := h1.wf.acyclic
      have h2 := ha.rank_le hr
      have h3 := hr y b (by rw [h1.parent y hylt]; exact hyb)
      omega
  · rw [htree m hanc, htm]

/-- Inserting the children of a node one after the other. -/
theorem insertAll_spec (parse : Str → Document) {D : Arena NodeData} (hD : D.Sound) (cs : List Nat) :
    (∀ c ∈ cs, (D.data c).kind ≠ .document) → ∀ {A : Arena NodeData} (_ : A.WF) {slots : Slots}
    {b : Nat} (_ : b < A.next) (_ : slots 0 = some b),
    ∃ ps A', insertAllLoop D (A.children b).length cs = .ok ps ∧ ps.length = cs.length ∧
      applyLoop parse A slots ps = .ok (A', slots) ∧ A'.WF ∧ A.next ≤ A'.next ∧
      A'.forest b = A.forest b ++ cs.map D.tree ∧
      (∀ i, i < A.next → i ≠ b → A'.children i = A.children i) ∧
      (∀ i, i < A.next → A'.data i = A.data i) := by
  induction cs with
  | nil =>
    intro _ A hA slots b hb hs
    exact ⟨[], A, rfl, rfl, rfl, hA, Nat.le_refl _, by simp, fun _ _ _ => rfl, fun _ _ => rfl⟩
  | cons c cs ih =>
    intro hk A hA slots b hb hs
    obtain ⟨x, _, hx, hp⟩ := insertContent_html hD c (hk c (by simp))
    obtain ⟨A1, m, e1, h1⟩ := insert_added parse hA hb hs x
    have hlen : (A1.children b).length = (A.children b).length + 1 := by rw [h1.children]; simp
    have hle := h1.le
    obtain ⟨ps, A', e2, hl, e3, h2, hle', hf, hc, hd⟩ := ih (fun c h => hk c (by simp [h])) h1.wf
      (b := b) (by omega) hs
    rw [hlen] at e2
    refine ⟨contentPatch [0, (A.children b).length] x :: ps, A', ?_, by simp [hl], ?_, h2, by omega, ?_,
      ?_, ?_⟩
    · simp only [insertAllLoop, hp, e2, bind, Except.bind]
    · simp only [applyLoop, e1, bind, Except.bind, e3]
    · rw [hf, List.map_cons, ← hx, ← h1.tree]
      unfold Arena.forest
      rw [h1.children, List.map_append, List.append_assoc]
      congr 1
      exact List.map_congr_left h1.trees
    · intro i hi hne
      rw [hc i (by omega) hne, h1.children_ne i hi hne]
    · intro i hi
      rw [hd i (by omega), h1.data i hi]

/-- **C07**, old document without body: the patches create a body with the content of the new one. -/
theorem C07_body_created (parse : Str → Document) {nb : Nat} (ho : old.Sound) (hn : new.Sound)
    (hob : old.body = none) (hnb : new.body = some nb) :
    ∃ ps D, diff hashNode old new = .ok ps ∧ applyPatches parse old ps = .ok D ∧
      D.bodyForest = new.bodyForest ∧ D.toBodyHtml = new.toBodyHtml := by
  suffices ∃ ps D, diff hashNode old new = .ok ps ∧ applyPatches parse old ps = .ok D ∧
      D.bodyForest = new.bodyForest by
    obtain ⟨ps, D, h1, h2, h3⟩ := this
    exact ⟨ps, D, h1, h2, h3, by rw [toBodyHtml_eq, toBodyHtml_eq, h3]⟩
  have hw0 := ho.arena.wf
  have hens : initSlots old = ({ old with arena := (old.arena.addChild old.root
      (Document.elem "body".toList)).1 }, Arena.upd (fun _ => none) 0 (some old.arena.next)) := by
    simp only [initSlots, Document.ensureBody, hob, Arena.addChild_snd]
  have hw := hw0.addChild ho.root_lt (Document.elem "body".toList)
  have hnx := Arena.addChild_next old.arena old.root (Document.elem "body".toList)
  have hch := hw0.addChild_children old.root (Document.elem "body".toList)
  have hda := Arena.addChild_data old.arena old.root (Document.elem "body".toList)
  generalize (old.arena.addChild old.root (Document.elem "body".toList)).1 = A0 at hens hw hnx hch hda
  have hrl := ho.root_lt
  have hcb : A0.children old.arena.next = [] := by
    rw [hch, if_neg (by omega), hw0.children_ge (Nat.le_refl _)]
  obtain ⟨ps, A', e1, hl, e2, h2, hle, hf, hc, hd⟩ := insertAll_spec parse hn.arena
    (new.arena.children nb) (fun c hc => hn.arena.nodoc c nb ((hn.arena.wf.mem_iff _ _).1 hc)) hw
    (slots := Arena.upd (fun _ => none) 0 (some old.arena.next)) (b := old.arena.next)
    (by omega) (by simp)
  rw [hcb] at e1
  have hdiff : diff hashNode old new = .ok ps := by
    unfold diff
    rw [hob, hnb]
    exact e1
  have hnf : new.bodyForest = (new.arena.children nb).map new.arena.tree := by
    unfold Document.bodyForest; rw [hnb]; rfl
  cases hps : ps with
  | nil =>
    subst hps
    refine ⟨[], old, hdiff, rfl, ?_⟩
    have : new.arena.children nb = [] := List.length_eq_zero_iff.1 hl.symm
    rw [hnf, this]
    unfold Document.bodyForest
    rw [hob]; rfl
  | cons P ps' =>
    rw [hps] at e2 hdiff
    refine ⟨_, { old with arena := A' }, hdiff, ?_, ?_⟩
    · unfold applyPatches
      rw [hens]
      simp only [List.isEmpty_cons, Bool.false_eq_true, if_false, e2, bind, Except.bind]
    · have hbody : ({ old with arena := A' } : Document).body = some old.arena.next := by
        unfold Document.body at hob ⊢
        show (A'.children old.root).find? _ = _
        rw [hc old.root (by omega) (by omega), hch, if_pos rfl, List.find?_append]
        have h1 : ∀ n, n ≠ old.arena.next → n < A0.next →
            Document.hasTag { old with arena := A' } "body".toList n = old.hasTag "body".toList n := by
          intro n hne hlt
          show (match (A'.data n).kind with | .element t _ => t == _ | _ => false) = _
          rw [hd n hlt, hda, if_neg hne]
          rfl
        have h2 : (old.arena.children old.root).find?
            (Document.hasTag { old with arena := A' } "body".toList) = none := by
          rw [List.find?_eq_none] at hob ⊢
          intro n hn'
          have := (hw0.lt_of_parent _ _ ((hw0.mem_iff _ _).1 hn')).1
          rw [h1 n (by omega) (by omega)]
          exact hob n hn'
        rw [h2, Option.none_or, List.find?_singleton]
        have h3 : Document.hasTag { old with arena := A' } "body".toList old.arena.next = true := by
          show (match (A'.data old.arena.next).kind with | .element t _ => t == _ | _ => false) = true
          rw [hd _ (by omega), hda, if_pos rfl]
          rfl
        rw [h3]; rfl
      rw [hnf]
      unfold Document.bodyForest
      rw [hbody]
      show A'.forest old.arena.next = _
      rw [hf]
      unfold Arena.forest
      rw [hcb]
      rfl

/-- A document without body, and one with content. -/
example : ∃ D : Document, D.Sound ∧ D.body = none ∧ (Document.ofForest attr1).Sound ∧
    (Document.ofForest attr1).body = some 2 := by
  refine ⟨⟨(Arena.newNode ⟨0, fun _ => none, fun _ => [], fun _ => default⟩
    (Document.elem "html".toList)).1, 0, none⟩, ?_, by decide +kernel,
    ⟨ofForest_valid attr1 (by decide +kernel), by decide +kernel⟩, by decide +kernel⟩
  refine ⟨⟨?_, ?_, ?_, ?_⟩, by decide +kernel⟩
  · exact Arena.WF.newNode ⟨fun _ _ h => (by cases h), fun _ _ => ⟨fun h => (by cases h),
      fun h => (by cases h)⟩, fun _ => List.nodup_nil, ⟨fun _ => 0, fun _ _ h => (by cases h)⟩⟩ _
  · intro n _
    simp [Arena.newNode, Arena.upd_apply]
  · intro n tag attrs h
    simp only [Arena.newNode, Arena.upd_apply] at h
    split at h
    · cases h; simp [Attrs.Unique]
    · cases h
  · intro n p h
    simp [Arena.newNode, Arena.upd_apply] at h

/-- Children `k`, `k + 1`, … of `b` are empty texts. -/
def Cleared (A : Arena NodeData) (b N k : Nat) : Prop :=
  (A.children b).length = N ∧ ∀ i c : Nat, k ≤ i → (A.children b)[i]? = some c →
    (A.data c).kind = .text []

theorem remove_cleared (parse : Str → Document) {A : Arena NodeData} (h : A.WF) {slots : Slots}
    {b N k : Nat} (hs : slots 0 = some b) (hk : k < N) (hc : Cleared A b N (k + 1)) :
    ∃ A', applyPatch parse A slots (.remove [0, k]) = .ok (A', slots) ∧ A'.WF ∧ A.next ≤ A'.next ∧
      Cleared A' b N k ∧ (∀ i, i ≠ b → A'.children i = A.children i) ∧
      (∀ i, i < A.next → A'.data i = A.data i) := by
  have hlt : k < (A.children b).length := by rw [hc.1]; exact hk
  have hget : (A.children b)[k]? = some (A.children b)[k] := List.getElem?_eq_getElem hlt
  generalize (A.children b)[k] = n at hget
  have hnp := (h.mem_iff _ _).1 (List.mem_of_getElem? hget)
  obtain ⟨A', e, hr⟩ := replaceByEmpty_repl h hnp
  have hnav : navigate A slots [0, k] = .ok n := by simp [navigate, hs, navLoop, hget]
  refine ⟨A', ?_, hr.wf, by rw [hr.next]; omega, ⟨?_, ?_⟩, ?_, ?_⟩
  · simp only [applyPatch, hnav, e, bind, Except.bind]
  · rw [hr.children, if_pos rfl, Arena.swapIn, List.length_map]; exact hc.1
  · intro i c hi hci
    rw [hr.children, if_pos rfl, Arena.swapIn, List.getElem?_map] at hci
    cases hgi : (A.children b)[i]? with
    | none => rw [hgi] at hci; cases hci
    | some y =>
      rw [hgi] at hci
      simp only [Option.map_some, Option.some.injEq] at hci
      have hy := (h.lt_of_parent _ _ ((h.mem_iff _ _).1 (List.mem_of_getElem? hgi))).1
      by_cases hyn : y = n
      · rw [if_pos hyn] at hci
        rw [← hci, hr.data, if_pos rfl]
        rfl
      · rw [if_neg hyn] at hci
        subst hci
        rw [hr.data, if_neg (by omega)]
        refine hc.2 i y ?_ hgi
        rcases Nat.lt_or_ge k i with h | h
        · exact h
        · have : i = k := by omega
          subst this
          rw [hget] at hgi; cases hgi; exact absurd rfl hyn
  · intro i hi; rw [hr.children, if_neg hi]
  · intro i hi; rw [hr.data, if_neg (by omega)]

theorem removeAll_spec (parse : Str → Document) (N k : Nat) : k ≤ N → ∀ {A : Arena NodeData} (_ : A.WF)
    {slots : Slots} {b : Nat} (_ : slots 0 = some b) (_ : Cleared A b N k),
    ∃ A', applyLoop parse A slots (removeAll k) = .ok (A', slots) ∧ A'.WF ∧ A.next ≤ A'.next ∧
      Cleared A' b N 0 ∧ (∀ i, i ≠ b → A'.children i = A.children i) ∧
      (∀ i, i < A.next → A'.data i = A.data i) := by
  induction k with
  | zero =>
    intro _ A h slots b _ hc
    exact ⟨A, rfl, h, Nat.le_refl _, hc, fun _ _ => rfl, fun _ _ => rfl⟩
  | succ k ih =>
    intro hk A h slots b hs hc
    obtain ⟨A1, e1, h1, hle1, hc1, hch1, hd1⟩ := remove_cleared parse h hs (by omega) hc
    obtain ⟨A', e2, h2, hle2, hc2, hch2, hd2⟩ := ih (by omega) h1 hs hc1
    have e3 : removeAll (k + 1) = .remove [0, k] :: removeAll k := by
      simp [removeAll, List.range_succ]
    refine ⟨A', ?_, h2, by omega, hc2, ?_, ?_⟩
    · rw [e3]
      simp only [applyLoop, e1, bind, Except.bind, e2]
    · intro i hi; rw [hch2 i hi, hch1 i hi]
    · intro i hi; rw [hd2 i (by omega), hd1 i hi]

/-- **C07**, new document without body: nothing but empty text nodes remains in the body. -/
theorem C07_body_emptied (parse : Str → Document) {ob : Nat} (ho : old.Sound)
    (hob : old.body = some ob) (hnb : new.body = none) :
    ∃ ps D, diff hashNode old new = .ok ps ∧ applyPatches parse old ps = .ok D ∧
      (∀ t ∈ D.bodyForest, t = .text []) ∧ D.toBodyHtml = new.toBodyHtml := by
  have hw := ho.arena.wf
  have hmem := List.mem_of_find?_eq_some hob
  have hobp := (hw.mem_iff _ _).1 hmem
  have hlt := hw.lt_of_parent _ _ hobp
  have hdiff : diff hashNode old new = .ok (removeAll (old.arena.children ob).length) := by
    unfold diff; rw [hob, hnb]
  have hnew : new.toBodyHtml = [] := by unfold Document.toBodyHtml; rw [hnb]
  have hser : ∀ ts : List Html, (∀ t ∈ ts, t = .text []) → Html.serL false ts = [] := by
    intro ts
    induction ts with
    | nil => intro _; rfl
    | cons t ts ih =>
      intro h
      rw [Html.serL, h t (by simp), ih (fun t ht => h t (by simp [ht]))]
      rfl
  suffices ∃ D, applyPatches parse old (removeAll (old.arena.children ob).length) = .ok D ∧
      ∀ t ∈ D.bodyForest, t = .text [] by
    obtain ⟨D, h1, h2⟩ := this
    exact ⟨_, D, hdiff, h1, h2, by rw [hnew, toBodyHtml_eq, hser _ h2]⟩
  obtain ⟨A', e, h, hle, hc, hch, hd⟩ := removeAll_spec parse (old.arena.children ob).length
    (old.arena.children ob).length (Nat.le_refl _) hw
    (slots := Arena.upd (fun _ => none) 0 (some ob)) (b := ob) (by simp)
    ⟨rfl, fun i c hi hc => by rw [List.getElem?_eq_none hi] at hc; cases hc⟩
  unfold applyPatches
  split
  · next he =>
    refine ⟨old, rfl, ?_⟩
    have h0 : old.arena.children ob = [] := by
      cases hl : old.arena.children ob with
      | nil => rfl
      | cons c l =>
        rw [hl] at he
        simp [removeAll, List.range_succ] at he
    unfold Document.bodyForest
    rw [hob]
    simp [Arena.forest, h0]
  · have hens : initSlots old = (old, Arena.upd (fun _ => none) 0 (some ob)) := by
      simp only [initSlots, Document.ensureBody, hob]
    rw [hens]
    refine ⟨{ old with arena := A' }, by simp only [e, bind, Except.bind], ?_⟩
    have hne : old.root ≠ ob := by
      intro e
      obtain ⟨r, hr⟩ := hw.acyclic
      have := hr _ _ hobp
      rw [e] at this
      omega
    have hbody : ({ old with arena := A' } : Document).body = some ob := by
      unfold Document.body at hob ⊢
      show (A'.children old.root).find? _ = _
      rw [hch old.root hne, ← hob]
      have htag : ∀ n, n < old.arena.next →
          Document.hasTag { old with arena := A' } "body".toList n = old.hasTag "body".toList n := by
        intro n hn
        show (match (A'.data n).kind with | .element t _ => t == _ | _ => false) = _
        rw [hd n hn]; rfl
      have hall : ∀ n ∈ old.arena.children old.root, n < old.arena.next := fun n hn =>
        (hw.lt_of_parent _ _ ((hw.mem_iff _ _).1 hn)).1
      generalize old.arena.children old.root = l at hall
      induction l with
      | nil => rfl
      | cons n l ih =>
        rw [List.find?_cons, List.find?_cons, htag n (hall n (by simp)),
          ih (fun m hm => hall m (by simp [hm]))]
    unfold Document.bodyForest
    rw [hbody]
    intro t ht
    have ht' : t ∈ A'.forest ob := ht
    unfold Arena.forest at ht'
    obtain ⟨c, hc', rfl⟩ := List.mem_map.1 ht'
    obtain ⟨i, hi⟩ := List.getElem?_of_mem hc'
    rw [h.tree_eq, hc.2 i c (Nat.zero_le _) hi]
    rfl

/-- **C07**, no bodies. -/
theorem C07_no_bodies (parse : Str → Document) (ho : old.body = none) (hn : new.body = none) :
    diff hashNode old new = .ok [] ∧ applyPatches parse old [] = .ok old ∧
      old.toBodyHtml = new.toBodyHtml := by
  refine ⟨C04_no_bodies ho hn, rfl, ?_⟩
  unfold Document.toBodyHtml
  rw [ho, hn]

end Hotmeal
