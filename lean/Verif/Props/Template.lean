import Verif.Model.Template
import Verif.Props.Scripted

set_option autoImplicit false
set_option linter.unusedSectionVars false

/-!
# C75: pages with templates
-/

namespace Hotmeal

mutual
/-- How many elements have the name `template`. -/
def Html.templates : Html → Nat
  | .element tag _ cs => (if tag = templateTag then 1 else 0) + Html.templatesL cs
  | _ => 0
/-- `templates` for lists. -/
def Html.templatesL : List Html → Nat
  | [] => 0
  | c :: cs => Html.templates c + Html.templatesL cs
end

theorem Html.templatesL_eq (cs : List Html) : Html.templatesL cs = (cs.map Html.templates).sum := by
  induction cs with
  | nil => rfl
  | cons c cs ih => simp [Html.templatesL, ih]

mutual
theorem Html.templates_unq (t : Html) : t.unq.templates = t.templates := by
  cases t with
  | element tag attrs cs => simp only [Html.unq, Html.templates, Html.templatesL_unqL cs]
  | _ => rfl
theorem Html.templatesL_unqL (cs : List Html) : Html.templatesL (Html.unqL cs) = Html.templatesL cs := by
  cases cs with
  | nil => rfl
  | cons c cs => simp only [Html.unqL, Html.templatesL, Html.templates_unq c, Html.templatesL_unqL cs]
end

mutual
theorem Html.templates_prune (t : Html) : t.prune.templates = t.templates := by
  cases t with
  | element tag attrs cs => simp only [Html.prune, Html.templates, Html.templatesL_pruneL cs]
  | _ => rfl
theorem Html.templatesL_pruneL (cs : List Html) : Html.templatesL (Html.pruneL cs) = Html.templatesL cs := by
  cases cs with
  | nil => rfl
  | cons c cs =>
    simp only [Html.pruneL, Html.templatesL]
    split
    · next h =>
      have : c.templates = 0 := by
        cases c with
        | element _ _ _ => simp [Html.isEmptyText] at h
        | _ => rfl
      rw [this, Html.templatesL_pruneL cs, Nat.zero_add]
    · simp only [Html.templatesL, Html.templates_prune c, Html.templatesL_pruneL cs]
end

/-- Two lists of numbers agree at the indices `K`, and one of them is zero elsewhere. If the sums are equal, both
are. -/
theorem sum_zero : ∀ (a b : List Nat) (K : Nat → Prop), (∀ k, K k → ∃ v, a[k]? = some v ∧ b[k]? = some v) →
    (∀ i v, ¬ K i → b[i]? = some v → v = 0) →
    b.sum ≤ a.sum ∧ (a.sum = b.sum → ∀ i v, ¬ K i → a[i]? = some v → v = 0)
  | [], b, K, h, hb => by
    refine ⟨?_, fun _ i v _ e => by simp at e⟩
    have : ∀ v ∈ b, v = 0 := by
      intro v hv
      obtain ⟨i, hi⟩ := List.mem_iff_getElem?.1 hv
      refine hb i v (fun hk => ?_) hi
      obtain ⟨w, e, _⟩ := h i hk
      simp at e
    have hs : ∀ l : List Nat, (∀ v ∈ l, v = 0) → l.sum = 0 := by
      intro l hl
      induction l with
      | nil => rfl
      | cons y ys ih =>
        rw [List.sum_cons, hl y List.mem_cons_self, ih fun v hv => hl v (List.mem_cons_of_mem _ hv)]
    rw [hs b this]
    exact Nat.zero_le _
  | x :: xs, [], K, h, hb => by
    refine ⟨by simp, fun e i v hk hv => ?_⟩
    have h1 : (x :: xs).sum = 0 := e
    have := List.mem_of_getElem? hv
    have h2 : ∀ {l : List Nat}, v ∈ l → v ≤ l.sum := by
      intro l
      induction l with
      | nil => intro h; cases h
      | cons y ys ih =>
        intro hm
        rw [List.sum_cons]
        rcases List.mem_cons.1 hm with rfl | hm
        · omega
        · have := ih hm; omega
    have := h2 this
    omega
  | x :: xs, y :: ys, K, h, hb => by
    obtain ⟨h1, h2⟩ := sum_zero xs ys (fun i => K (i + 1)) (fun k hk => by simpa using h (k + 1) hk)
      (fun i v hk hv => hb (i + 1) v hk (by simpa using hv))
    have hxy : y ≤ x := by
      by_cases hk : K 0
      · obtain ⟨v, e1, e2⟩ := h 0 hk
        simp at e1 e2
        omega
      · have := hb 0 y hk rfl
        omega
    simp only [List.sum_cons]
    refine ⟨by omega, fun e i v hk hv => ?_⟩
    cases i with
    | zero =>
      have := hb 0 y hk rfl
      simp at hv
      omega
    | succ i => exact h2 (by omega) i v hk (by simpa using hv)

namespace Arena

variable {A B : Arena NodeData} {content : Nat → List Html}

theorem WF.shown_eq (h : A.WF) (content : Nat → List Html) (n : Nat) :
    A.shown content n = Html.ofKind (A.data n).kind
      (if (A.data n).isTemplate then content n else (A.children n).map (A.shown content)) := by
  unfold Arena.shown
  rw [h.fold_eq]

/-- Without templates the browser shows the tree of the nodes. -/
theorem WF.shown_tree (h : A.WF) (content : Nat → List Html) (n : Nat) :
    (A.tree n).templates = 0 ∨ (A.shown content n).templates = 0 → A.shown content n = A.tree n := by
  refine h.induct_down (P := fun n => (A.tree n).templates = 0 ∨ (A.shown content n).templates = 0 →
    A.shown content n = A.tree n) ?_ n
  intro n ih h0
  rw [h.shown_eq, h.tree_eq] at h0 ⊢
  have hz : ∀ {l : List Html}, Html.templatesL l = 0 → ∀ c ∈ l, c.templates = 0 := by
    intro l
    induction l with
    | nil => intro _ c hc; cases hc
    | cons c l ih =>
      intro e d hd
      simp only [Html.templatesL] at e
      rcases List.mem_cons.1 hd with rfl | hd
      · omega
      · exact ih (by omega) d hd
  cases hd : A.data n with
  | mk k ns =>
    cases k with
    | element tag attrs =>
      rw [hd] at h0
      have ht : tag ≠ templateTag := by
        rintro rfl
        simp only [Html.ofKind, Html.templates, if_true] at h0
        omega
      have hnt : (NodeData.mk (.element tag attrs) ns).isTemplate = false := by
        cases ns <;> simp [NodeData.isTemplate, ht]
      simp only [Html.ofKind, Html.templates, if_neg ht, Nat.zero_add, hnt, Bool.false_eq_true, if_false] at h0 ⊢
      congr 1
      apply List.map_congr_left
      intro c hc
      refine ih c hc ?_
      rcases h0 with h0 | h0
      · exact .inl (hz h0 _ (List.mem_map_of_mem (f := A.tree) hc))
      · exact .inr (hz h0 _ (List.mem_map_of_mem (f := A.shown content) hc))
    | _ => rfl

theorem shown_congr (hA : A.WF) (hB : B.WF) (content : Nat → List Html) (n : Nat) :
    (∀ m, A.Anc n m → B.children m = A.children m ∧ B.data m = A.data m) → B.shown content n = A.shown content n := by
  refine hA.induct_down (P := fun n => (∀ m, A.Anc n m → B.children m = A.children m ∧ B.data m = A.data m) →
    B.shown content n = A.shown content n) ?_ n
  intro n ih h
  rw [hA.shown_eq, hB.shown_eq, (h n .refl).2, (h n .refl).1]
  congr 2
  apply List.map_congr_left
  intro c hc
  exact ih c hc fun m hm => h m (.trans (.step ((hA.mem_iff _ _).1 hc) .refl) hm)

theorem hollow_parent (A : Arena NodeData) {n p : Nat} :
    A.hollow.parent n = some p ↔ A.parent n = some p ∧ (A.data p).isTemplate = false := by
  simp only [Arena.hollow]
  cases e : A.parent n with
  | none => simp
  | some q =>
    simp only
    constructor
    · intro h
      split at h
      · cases h
      · next ht => cases h; simpa using ht
    · rintro ⟨h1, h2⟩
      cases h1
      rw [h2]
      rfl

theorem hollow_anc (A : Arena NodeData) {a n : Nat} (h : A.hollow.Anc a n) : A.Anc a n := by
  induction h with
  | refl => exact .refl
  | step hp _ ih => exact .step ((hollow_parent A).1 hp).1 ih

theorem WF.hollow (h : A.WF) : A.hollow.WF where
  lt_of_parent c p hp := h.lt_of_parent c p ((hollow_parent A).1 hp).1
  mem_iff p c := by
    rw [hollow_parent]
    simp only [Arena.hollow]
    split
    · next e => simp [e]
    · next e => rw [h.mem_iff]; simpa using fun _ => e
  nodup p := by
    simp only [Arena.hollow]
    split
    · exact List.nodup_nil
    · exact h.nodup p
  acyclic := by
    obtain ⟨rank, hr⟩ := h.acyclic
    exact ⟨rank, fun c p hp => hr c p ((hollow_parent A).1 hp).1⟩

/-- The page that a browser makes of a document shows the document. -/
theorem WF.shown_hollow (h : A.WF) (n : Nat) : A.hollow.shown A.forest n = A.tree n := by
  refine h.induct_down (P := fun n => A.hollow.shown A.forest n = A.tree n) ?_ n
  intro n ih
  rw [h.hollow.shown_eq, h.tree_eq]
  show Html.ofKind (A.data n).kind (if (A.data n).isTemplate then A.forest n else
    (A.hollow.children n).map (A.hollow.shown A.forest)) = _
  cases e : (A.data n).isTemplate with
  | true => rfl
  | false =>
    have : A.hollow.children n = A.children n := by simp [Arena.hollow, e]
    rw [this]
    congr 1
    simp only [Bool.false_eq_true, if_false, Arena.forest]
    exact List.map_congr_left fun c hc => ih c hc

end Arena

theorem Arena.Alike.tree_eq {A B : Arena NodeData} (hA : A.WF) (hB : B.WF) {n m : Nat}
    (h : Arena.Alike Eq A B n m) : A.tree n = B.tree m := by
  induction h with
  | @node n m data len _ ih =>
    rw [hA.tree_eq, hB.tree_eq, data]
    congr 1
    unfold Arena.forest
    apply List.ext_getElem?
    intro i
    rw [List.getElem?_map, List.getElem?_map]
    cases e1 : (A.children n)[i]? with
    | none =>
      rw [List.getElem?_eq_none_iff] at e1
      rw [List.getElem?_eq_none (by omega)]; rfl
    | some c =>
      have h1 := (List.getElem?_eq_some_iff.1 e1).1
      have e2 := List.getElem?_eq_getElem (l := B.children m) (i := i) (by omega)
      rw [e2]
      simp only [Option.map_some]
      rw [ih i _ _ e1 e2]

variable {H : Type} [DecidableEq H] {hashNode : HKind → Option Str → List H → H}
  {old new : Document} {ob nb : Nat}

/-- **C75**, partial. The blocks `K` are equal in the old and the new version, and there are no templates outside of
them. Then a page that shows the old version, templates with their content, shows the new version after the
patches, templates with their content. Missing: templates in parts that change; and as for
`C74_scripted_blocks_survive_partial`. -/
theorem C75_templates_partial {N : QualName → Prop} (dom : WebDom) (h : Comparable old new ob nb)
    (hc : NoCollision hashNode (buildTree old ob) (diffable new) nb) (ho : old.Clear ob) (hn : new.Clear nb)
    (hf : NoMoveBelowSelf hashNode old new ob nb ∨ NoInversion hashNode old new ob nb)
    (hN : PlainNames N) (hno : old.NamesIn N ob) (hnn : new.NamesIn N nb)
    (hk : new.AllIn dom.KeepsTag dom.KeepsName nb)
    {K : Nat → Prop} (hK : ∀ k, K k → ∃ x y, SameBlock old new ob nb k x y)
    (hto : ∀ i c, ¬ K i → (old.arena.children ob)[i]? = some c → (old.arena.tree c).templates = 0)
    (htn : ∀ i c, ¬ K i → (new.arena.children nb)[i]? = some c → (new.arena.tree c).templates = 0)
    {E : Arena NodeData} {eb : Nat} (hE : E.WF) (hl : E.Lower) (heb : eb < E.next) {content : Nat → List Html}
    (hsame : (E.shown content eb).unq = (old.arena.tree ob).unq) :
    ∃ ps E', diff hashNode old new = .ok ps ∧ dom.applyPatches eb E ps = .ok E' ∧
      (E'.shown content eb).inner = new.toBodyHtml := by
  have hwo := h.old.sound.arena.wf
  have hwn := h.new.sound.arena.wf
  -- the root of the page
  obtain ⟨_, oattrs, hok⟩ := Document.body_spec h.old.body
  have hbody : "body".toList ≠ templateTag := by decide
  have ho1 : old.arena.tree ob = .element "body".toList oattrs (old.arena.forest ob) := by
    rw [hwo.tree_eq, hok]; rfl
  obtain ⟨tag, attrs, hek⟩ : ∃ tag attrs, (E.data eb).kind = .element tag attrs := by
    rw [hE.shown_eq, ho1] at hsame
    cases ek : (E.data eb).kind with
    | element tag attrs => exact ⟨tag, attrs, rfl⟩
    | _ => rw [ek] at hsame; simp [Html.ofKind, Html.unq] at hsame
  have htag : tag = "body".toList := by
    rw [hE.shown_eq, ho1, hek] at hsame
    simp only [Html.ofKind, Html.unq, Html.element.injEq] at hsame
    exact hsame.1
  subst htag
  have notT : ∀ {d : NodeData} {attrs : Attrs}, d.kind = .element "body".toList attrs → d.isTemplate = false := by
    rintro ⟨k, ns⟩ attrs hd
    simp only at hd
    subst hd
    cases ns <;> simp only [NodeData.isTemplate, decide_eq_false hbody]
  have hsh : E.shown content eb = .element "body".toList attrs ((E.children eb).map (E.shown content)) := by
    rw [hE.shown_eq, hek, notT hek]; rfl
  have htr : E.tree eb = .element "body".toList attrs ((E.children eb).map E.tree) := by
    rw [hE.tree_eq, hek]; rfl
  have hkids : (E.children eb).map (fun c => (E.shown content c).unq) =
      (old.arena.children ob).map (fun c => (old.arena.tree c).unq) := by
    rw [hsh, ho1] at hsame
    simp only [Html.unq, Html.element.injEq, Html.unqL_eq, Arena.forest, List.map_map] at hsame
    exact hsame.2.2
  have hx : (E.shown content eb).SameExcept K (E.tree eb) := by
    refine ⟨"body".toList, attrs, _, _, hsh, htr, by simp, fun i hi => ?_⟩
    rw [List.getElem?_map, List.getElem?_map]
    cases ec : (E.children eb)[i]? with
    | none => rfl
    | some c =>
      simp only [Option.map_some]
      rw [hE.shown_tree content c (.inr ?_)]
      have e1 := congrArg (·[i]?) hkids
      simp only [List.getElem?_map, ec, Option.map_some] at e1
      cases ed : (old.arena.children ob)[i]? with
      | none => rw [ed] at e1; cases e1
      | some d =>
        rw [ed] at e1
        rw [← Html.templates_unq, Option.some.inj e1, Html.templates_unq]
        exact hto i d hi ed
  obtain ⟨ps, E', u, e1, e2, e3, ⟨attrs2, cs, e4, e5⟩, e6, e7, hw', hkb⟩ :=
    h.scripted dom hc ho hn hf hN hno hnn hk hK hE hl heb hsame hx
  refine ⟨ps, E', e1, e2, ?_⟩
  obtain ⟨tag1, attrs1, us, ds, rfl, f2, f3, f4⟩ := e6
  -- no templates outside of the blocks
  have hzero : ∀ i c, ¬ K i → us[i]? = some c → c.templates = 0 := by
    have hb : Html.templatesL us = Html.templatesL new.bodyForest := by
      simp only [Html.unq, Html.element.injEq] at e4
      rw [← Html.templatesL_unqL us, e4.2.2, Html.templatesL_unqL, ← Html.templatesL_pruneL, e5, Html.templatesL_pruneL]
    have hnf : new.bodyForest = (new.arena.children nb).map new.arena.tree := by
      simp only [Document.bodyForest, h.new.body, Arena.forest]
    rw [Html.templatesL_eq, Html.templatesL_eq] at hb
    have := (sum_zero (us.map Html.templates) (new.bodyForest.map Html.templates) K (fun k hk => ?_)
      (fun i v hi hv => ?_)).2 hb
    · intro i c hi hc
      exact this i _ hi (by rw [List.getElem?_map, hc]; rfl)
    · obtain ⟨x, y, hs⟩ := hK k hk
      obtain ⟨z, g1, g2⟩ := e7 k hk
      refine ⟨(old.arena.tree x).templates, ?_, ?_⟩
      · rw [List.getElem?_map]
        have g3 : us[k]? = some z := g2
        rw [g3]
        rw [hsh] at g1
        have g1 : ((E.children eb).map (E.shown content))[k]? = some z := g1
        have e1 := congrArg (·[k]?) hkids
        simp only [List.getElem?_map, hs.kidOld, Option.map_some] at e1
        rw [List.getElem?_map] at g1
        cases ec : (E.children eb)[k]? with
        | none => rw [ec] at g1; cases g1
        | some c =>
          rw [ec] at g1 e1
          cases g1
          simp only [Option.map_some, Option.some.injEq] at e1 ⊢
          rw [← Html.templates_unq, e1, Html.templates_unq]
      · rw [hnf, List.map_map, List.getElem?_map, hs.kidNew]
        simp only [Option.map_some, Function.comp_apply, hs.same.tree_eq hwo hwn]
    · rw [hnf, List.map_map, List.getElem?_map] at hv
      cases ec : (new.arena.children nb)[i]? with
      | none => rw [ec] at hv; cases hv
      | some c => rw [ec] at hv; cases hv; exact htn i c hi ec
  obtain ⟨_, hds⟩ := Rep.isElement_of_tree hw' f2
  have hfin : E'.shown content eb = .element tag1 attrs1 us := by
    have hkd : (E'.data eb).kind = .element tag1 attrs1 := by
      rw [hw'.tree_eq] at f2
      cases ek : (E'.data eb).kind with
      | element tag' attrs' =>
        rw [ek] at f2
        simp only [Html.ofKind, Html.element.injEq] at f2
        rw [f2.1, f2.2.1]
      | _ => rw [ek] at f2; simp [Html.ofKind] at f2
    have htag1 : tag1 ≠ templateTag := by
      simp only [Html.unq, Html.element.injEq] at e4
      rw [e4.1]
      exact hbody
    have hnt : (E'.data eb).isTemplate = false := by
      generalize E'.data eb = d at hkd
      obtain ⟨k, ns⟩ := d
      simp only at hkd
      subst hkd
      cases ns <;> simp [NodeData.isTemplate, htag1]
    rw [hw'.shown_eq, hkd, hnt]
    simp only [Html.ofKind, Bool.false_eq_true, if_false]
    congr 1
    apply List.ext_getElem?
    intro i
    rw [List.getElem?_map]
    by_cases hi : K i
    · obtain ⟨z, g1, g2⟩ := e7 i hi
      have g2 : us[i]? = some z := g2
      rw [g2, hkb.place i hi]
      rw [hsh] at g1
      have g1 : ((E.children eb).map (E.shown content))[i]? = some z := g1
      rw [List.getElem?_map] at g1
      cases ec : (E.children eb)[i]? with
      | none => rw [ec] at g1; cases g1
      | some c =>
        rw [ec] at g1
        rw [← g1]
        simp only [Option.map_some]
        rw [Arena.shown_congr hE hw' content c fun m hm => hkb.nodes m ⟨i, c, hi, ec, hm⟩]
    · have h1 := f4 i hi
      rw [h1, hds, List.getElem?_map]
      cases ec : (E'.children eb)[i]? with
      | none => rfl
      | some c =>
        simp only [Option.map_some]
        rw [hw'.shown_tree content c (.inl ?_)]
        refine hzero i _ hi ?_
        rw [h1, hds, List.getElem?_map, ec]
        rfl
  rw [hfin]
  exact e3

/-- **C75**, partial, for the page that the browser makes of the old document. -/
theorem C75_loaded_page_partial {N : QualName → Prop} (dom : WebDom) (h : Comparable old new ob nb)
    (hc : NoCollision hashNode (buildTree old ob) (diffable new) nb) (ho : old.Clear ob) (hn : new.Clear nb)
    (hf : NoMoveBelowSelf hashNode old new ob nb ∨ NoInversion hashNode old new ob nb)
    (hN : PlainNames N) (hno : old.NamesIn N ob) (hnn : new.NamesIn N nb)
    (hk : new.AllIn dom.KeepsTag dom.KeepsName nb)
    {K : Nat → Prop} (hK : ∀ k, K k → ∃ x y, SameBlock old new ob nb k x y)
    (hto : ∀ i c, ¬ K i → (old.arena.children ob)[i]? = some c → (old.arena.tree c).templates = 0)
    (htn : ∀ i c, ¬ K i → (new.arena.children nb)[i]? = some c → (new.arena.tree c).templates = 0)
    (hl : old.arena.Lower) :
    ∃ ps E', diff hashNode old new = .ok ps ∧ dom.applyPatches ob old.arena.hollow ps = .ok E' ∧
      (E'.shown old.arena.forest ob).inner = new.toBodyHtml := by
  have hw := h.old.sound.arena.wf
  refine C75_templates_partial dom h hc ho hn hf hN hno hnn hk hK hto htn hw.hollow (hl.of_data rfl) ?_
    (by rw [hw.shown_hollow])
  have hbm := (Document.body_spec h.old.body).1
  exact (hw.lt_of_parent _ _ ((hw.mem_iff _ _).1 hbm)).1

/-- **C75** is violated when something changes in a template: in no page that a browser has made can a patch change,
remove or move what is inside a template, since there the template has no child nodes. -/
theorem C75_violated_inside (dom : WebDom) (A : Arena NodeData) (root : Nat) (s : Slots) (q : Path) (i : Nat)
    (is : List Nat) {n : Nat} (hq : Wasm.findNode root A.hollow s q = .ok n) (hn : (A.data n).isTemplate = true) :
    (∀ t, ∃ e, dom.applyPatch root A.hollow s (.setText (q ++ i :: is) t) = .error e) ∧
    (∀ k v, ∃ e, dom.applyPatch root A.hollow s (.setAttribute (q ++ i :: is) k v) = .error e) ∧
    (∀ k, ∃ e, dom.applyPatch root A.hollow s (.removeAttribute (q ++ i :: is) k) = .error e) ∧
    (∀ cs, ∃ e, dom.applyPatch root A.hollow s (.updateProps (q ++ i :: is) cs) = .error e) ∧
    (∃ e, dom.applyPatch root A.hollow s (.remove (q ++ i :: is)) = .error e) ∧
    (∀ to_ slot, ∃ e, dom.applyPatch root A.hollow s (.move (q ++ i :: is) to_ slot) = .error e) := by
  have hk : A.hollow.children n = [] := by simp [Arena.hollow, hn]
  have hloop : ∀ (q : List Nat) (r : Nat), navLoop A.hollow r q = .ok n →
      ∃ e, navLoop A.hollow r (q ++ i :: is) = .error e := by
    intro q
    induction q with
    | nil =>
      intro r e
      cases e
      simp only [List.nil_append, navLoop, hk]
      exact ⟨_, rfl⟩
    | cons j js ih =>
      intro r e
      simp only [navLoop, List.cons_append] at e ⊢
      cases ec : (A.hollow.children r)[j]? with
      | none => exact ⟨_, rfl⟩
      | some c => rw [ec] at e; exact ih c e
  have hf : ∃ e, Wasm.findNode root A.hollow s (q ++ i :: is) = .error e := by
    unfold Wasm.findNode navigate at hq ⊢
    cases q with
    | nil => cases hq
    | cons k q =>
      simp only [List.cons_append] at hq ⊢
      cases ev : Wasm.view root s k with
      | none => exact ⟨_, rfl⟩
      | some r => rw [ev] at hq; exact hloop q r hq
  obtain ⟨e, hf⟩ := hf
  obtain ⟨a, b, l, hp⟩ : ∃ a b l, q ++ i :: is = a :: b :: l := by
    cases q with
    | nil => cases hq
    | cons a q => cases q with
      | nil => exact ⟨a, i, is, rfl⟩
      | cons b q => exact ⟨a, b, q ++ i :: is, rfl⟩
  rw [hp] at hf ⊢
  refine ⟨fun t => ⟨e, ?_⟩, fun k v => ⟨e, ?_⟩, fun k => ⟨e, ?_⟩, fun cs => ⟨e, ?_⟩, ⟨e, ?_⟩, fun to_ slot => ⟨e, ?_⟩⟩ <;>
    simp only [WebDom.applyPatch, Wasm.applyPatch, hf, bind, Except.bind]

/-! ### Concrete cases -/

/-- A page with a template and a paragraph. -/
def tmpl1 : List Html :=
  [ex "template" [("id", "row")] [ex "tr" [] [ex "td" [] [.text "cell".toList]]], ex "p" [] [.text "one".toList]]
/-- The same template, another paragraph and a new heading. -/
def tmpl2 : List Html :=
  [ex "template" [("id", "row")] [ex "tr" [] [ex "td" [] [.text "cell".toList]]],
    ex "p" [("class", "x")] [.text "two".toList], ex "h2" [] [.text "end".toList]]
/-- Another text in the template. -/
def tmpl3 : List Html :=
  [ex "template" [("id", "row")] [ex "tr" [] [ex "td" [] [.text "CELL".toList]]], ex "p" [] [.text "one".toList]]

/-- **C75**: elements of other namespaces (in drawings or formulas) that are called `template` have no content; their
children are shown. -/
theorem C75_foreign_template {A : Arena NodeData} (h : A.WF) (content : Nat → List Html) {n : Nat} {tag : Str}
    {attrs : Attrs} {ns : Ns} (hd : A.data n = ⟨.element tag attrs, ns⟩) (hns : ns ≠ .html) :
    A.hollow.children n = A.children n ∧
      A.shown content n = .element tag attrs ((A.children n).map (A.shown content)) := by
  have e : (A.data n).isTemplate = false := by
    rw [hd]
    cases ns with
    | html => exact absurd rfl hns
    | svg => rfl
    | mathml => rfl
  refine ⟨by simp [Arena.hollow, e], ?_⟩
  rw [h.shown_eq, e, hd]
  rfl

/-- The template of `tmpl1` as an element of a drawing. -/
example : let A : Arena NodeData := { (Document.ofForest tmpl1).arena with
      data := Arena.upd (Document.ofForest tmpl1).arena.data 3 ⟨.element templateTag [], .svg⟩ }
    A.WF ∧ A.data 3 = ⟨.element templateTag [], .svg⟩ ∧ A.children 3 = [4] := by
  have h := (ofForest_valid tmpl1 (by decide +kernel)).wf
  exact ⟨⟨h.lt_of_parent, h.mem_iff, h.nodup, h.acyclic⟩, rfl, by decide +kernel⟩

/-- The hypotheses of C75 hold for `tmpl1`, `tmpl2`; the page in the browser shows the template with its content,
which is not made of child nodes. -/
example : Comparable (.ofForest tmpl1) (.ofForest tmpl2) 2 2 ∧
    NoCollision Shape.node (buildTree (.ofForest tmpl1) 2) (diffable (.ofForest tmpl2)) 2 ∧
    (Document.ofForest tmpl1).Clear 2 ∧ (Document.ofForest tmpl2).Clear 2 ∧
    NoMoveBelowSelf Shape.node (.ofForest tmpl1) (.ofForest tmpl2) 2 2 ∧
    (Document.ofForest tmpl1).NamesIn bareName 2 ∧ (Document.ofForest tmpl2).NamesIn bareName 2 ∧
    (Document.ofForest tmpl2).AllIn WebDom.lenient.KeepsTag WebDom.lenient.KeepsName 2 ∧
    SameBlock (.ofForest tmpl1) (.ofForest tmpl2) 2 2 0 3 3 ∧ (Document.ofForest tmpl1).arena.Lower ∧
    (Document.ofForest tmpl1).arena.hollow.children 3 = [] ∧
    (∀ i c, ¬ i = 0 → ((Document.ofForest tmpl1).arena.children 2)[i]? = some c →
      ((Document.ofForest tmpl1).arena.tree c).templates = 0) ∧
    (∀ i c, ¬ i = 0 → ((Document.ofForest tmpl2).arena.children 2)[i]? = some c →
      ((Document.ofForest tmpl2).arena.tree c).templates = 0) ∧
    (match diff Shape.node (.ofForest tmpl1) (.ofForest tmpl2) with
      | .ok ps => decide (2 ≤ ps.length) | .error _ => false) = true := by
  have h1 := ofForest_valid tmpl1 (by decide +kernel)
  have h2 := ofForest_valid tmpl2 (by decide +kernel)
  have c1 : (Document.ofForest tmpl1).arena.children 2 = [3, 7] := by decide +kernel
  have c2 : (Document.ofForest tmpl2).arena.children 2 = [3, 7, 9] := by decide +kernel
  refine ⟨comparable_ofForest (by decide +kernel) (by decide +kernel), noCollision_shape _ _ _,
    clear_of h1.wf (by decide +kernel), clear_of h2.wf (by decide +kernel),
    noMoveBelowSelf_of_movesSafe (by decide +kernel),
    namesIn_of_bareB h1.wf (by decide +kernel) (by decide +kernel),
    namesIn_of_bareB h2.wf (by decide +kernel) (by decide +kernel),
    allIn_of_keptB h2.wf (by decide +kernel) (by decide +kernel),
    sameBlockB_spec h1.wf h2.wf (by decide +kernel), lower_ofForest (by decide +kernel), by decide +kernel,
    fun i c hi e => ?_, fun i c hi e => ?_, by decide +kernel⟩
  · rw [c1] at e
    match i, hi with
    | 1, _ => cases e; decide +kernel
    | n + 2, _ => simp at e
  · rw [c2] at e
    match i, hi with
    | 1, _ => cases e; decide +kernel
    | 2, _ => cases e; decide +kernel
    | n + 3, _ => simp at e

/-- **C75** is violated by patches that `diff` makes: a text in a template changes, and the update fails in the
browser (the library applies it to its own document). -/
theorem C75_violated_changed : Comparable (.ofForest tmpl1) (.ofForest tmpl3) 2 2 ∧
    NoMoveBelowSelf Shape.node (.ofForest tmpl1) (.ofForest tmpl3) 2 2 ∧
    (match diff Shape.node (.ofForest tmpl1) (.ofForest tmpl3) with
      | .ok ps => (match WebDom.lenient.applyPatches 2 (Document.ofForest tmpl1).arena.hollow ps with
          | .ok _ => false
          | .error e => decide (e = .pathOutOfBounds 0)) &&
        (match applyPatches (fun _ => .ofForest []) (.ofForest tmpl1) ps with
          | .ok D => decide (D.toBodyHtml = (Document.ofForest tmpl3).toBodyHtml)
          | .error _ => false)
      | .error _ => false) = true :=
  ⟨comparable_ofForest (by decide +kernel) (by decide +kernel), noMoveBelowSelf_of_movesSafe (by decide +kernel),
    by decide +kernel⟩

/-- **C75** is violated by new templates: the client makes child nodes of their content, and the template that the
browser shows is empty. -/
theorem C75_violated_new : Comparable (.ofForest short1) (.ofForest (short1 ++ tmpl1.take 1)) 2 2 ∧
    NoMoveBelowSelf Shape.node (.ofForest short1) (.ofForest (short1 ++ tmpl1.take 1)) 2 2 ∧
    (match diff Shape.node (.ofForest short1) (.ofForest (short1 ++ tmpl1.take 1)) with
      | .ok ps => match WebDom.lenient.applyPatches 2 (Document.ofForest short1).arena.hollow ps with
        | .ok E => decide ((E.shown (fun _ => []) 2).inner = "<p>a</p><template id=\"row\"></template>".toList)
        | .error _ => false
      | .error _ => false) = true :=
  ⟨comparable_ofForest (by decide +kernel) (by decide +kernel), noMoveBelowSelf_of_movesSafe (by decide +kernel),
    by decide +kernel⟩

end Hotmeal
