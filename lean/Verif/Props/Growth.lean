import Verif.Lemmas.FanRun
import Verif.Model.Client
import Verif.Props.Patches
import Verif.Props.RoundTrip

set_option autoImplicit false
set_option linter.unusedSectionVars false

/-!
# C61: a page does not fill up with leftovers
-/

namespace Hotmeal

variable {H : Type} [DecidableEq H] {hashNode : HKind → Option Str → List H → H}

/-- The versions of a page are compared one after the other and the open page gets the patches. -/
def Page.updates (hashNode : HKind → Option Str → List H → H) (dom : WebDom) (p : Page) :
    Document → List Document → Res Page
  | _, [] => .ok p
  | v, w :: ws => do
    let ps ← diff hashNode v w
    let p ← p.handle dom p (.patches [] ps)
    p.updates hashNode dom w ws

/-- **C61** for patches of any origin: a page on which no element has more than `K` children has no such element
either after patches that only put nodes at places below `K` and have no content with more than `K` children. -/
theorem C61_patches_do_not_grow_the_page (dom : WebDom) {K : Nat} (hK : 1 ≤ K) {E : Arena NodeData} {eb : Nat}
    (hE : E.WF) (heb : eb < E.next) (hf : E.Fan K) {ps : List Patch} (hp : ∀ P ∈ ps, dom.PatchFits K P)
    {E' : Arena NodeData} (e : dom.applyPatches eb E ps = .ok E') :
    E'.WF ∧ eb < E'.next ∧ E'.Fan K := by
  unfold WebDom.applyPatches at e
  obtain ⟨⟨A, s⟩, h1, e⟩ := res_bind e
  cases e
  have hw : Within E eb E eb := ⟨heb, fun h => h.2 .refl⟩
  have hs : SlotsWithin E eb E (fun _ => none) := by intro k n h; cases h
  have h := Safe.applyLoop dom hE ps ⟨hE, .refl hE⟩ hw hs h1
  exact ⟨h.wf, Nat.lt_of_lt_of_le heb h.fenced.le, Fan.applyLoop dom hE hK ps ⟨hE, .refl hE⟩ hw hs hf hp h1⟩

/-- **C61**, partial. However often a page is updated, no element of it has more children than the elements of
the versions and of the page at the start had: the empty texts that patches leave where they took nodes away are
used again. `K` is any bound on the number of children.

Missing from the full statement: pairs of versions whose edit script moves a node below itself, and names that
the DOM of the browser rejects. -/
theorem C61_page_does_not_grow_partial (dom : WebDom) {K : Nat} (hK : 1 ≤ K) :
    ∀ (ws : List Document) {v : Document} {p p' : Page}, p.arena.WF → p.body < p.arena.next → p.arena.Fan K →
      (∀ D ∈ v :: ws, D.Sound ∧ D.arena.Fan K ∧ dom.Accepts D) →
      List.IsChain (NoDetours hashNode) (v :: ws) →
      p.updates hashNode dom v ws = .ok p' → p'.arena.Fan K
  | [], _, _, _, _, _, hf, _, _, e => by cases e; exact hf
  | w :: ws, v, p, p', hw, hb, hf, hD, hc, e => by
    obtain ⟨ps, hd, e⟩ := res_bind e
    obtain ⟨p1, h1, e⟩ := res_bind e
    unfold Page.handle at h1
    obtain ⟨A, h2, h1⟩ := res_bind h1
    cases h1
    obtain ⟨sv, _, _⟩ := hD v (by simp)
    obtain ⟨sw, kw, aw⟩ := hD w (by simp)
    rw [List.isChain_cons_cons] at hc
    obtain ⟨g1, g2, g3⟩ := C61_patches_do_not_grow_the_page dom hK hw hb hf (ps := ps.map Patch.wire) (by
      intro P hP
      obtain ⟨Q, hQ, rfl⟩ := List.mem_map.1 hP
      exact patchFits aw kw (C54_content_comes_from_the_new_page sv sw hd Q hQ)
        (diff_placed sv sw hc.1 kw hd Q hQ)) h2
    exact C61_page_does_not_grow_partial dom hK ws g1 g2 g3 (fun D h => hD D (by simp at h ⊢; exact .inr h)) hc.2 e

/-- The condition of `C61_page_does_not_grow_partial` holds when no Move of the edit script puts a node below
itself. -/
theorem noDetours_of_noMoveBelowSelf {old new : Document}
    (h : ∀ ob nb, old.body = some ob → new.body = some nb → NoMoveBelowSelf hashNode old new ob nb) :
    NoDetours hashNode old new :=
  fun ob nb S ho hn hS => straight_of_ancestorFree _ (h ob nb ho hn S hS)

/-- It also holds when the matching does not turn an ancestor order around. -/
theorem Comparable.noDetours {old new : Document} {ob nb : Nat} (h : Comparable old new ob nb)
    (hc : NoCollision hashNode (buildTree old ob) (diffable new) nb)
    (ho : OpaqueAgree hashNode old new ob nb) (hf : NoInversion hashNode old new ob nb) :
    NoDetours hashNode old new := by
  intro ob' nb' S ho' hn' hS
  rw [h.old.body] at ho'; cases ho'
  rw [h.new.body] at hn'; cases hn'
  obtain ⟨f, hd, hbt⟩ := h.docRel_old
  obtain ⟨S0, ps, w, g, hS0, _, ht, _⟩ := h.run hc ho (.inr hf) (lawful_native (fun _ => .ofForest []) ob) hd
    (slots := Arena.upd (fun _ => none) 0 (some ob)) (by simp)
  rw [hS] at hS0; cases hS0
  exact ht.straight

/-- **C61**, partial, for a document of the library: when a document is compared with a new version and patched
with the result, no element of the patched document has more children than the elements of both had. (So this
also holds along any sequence of such updates.)

Missing from the full statement: as for `C01_round_trip_opaque_partial`; and the patches have to come from a
comparison with the document itself, see `C61_violated`. -/
theorem C61_document_does_not_grow_partial (parse : Str → Document) {old new : Document} {ob nb K : Nat}
    (h : Comparable old new ob nb) (hc : NoCollision hashNode (buildTree old ob) (diffable new) nb)
    (ho : OpaqueFixed hashNode old new ob nb)
    (hf : NoMoveBelowSelf hashNode old new ob nb ∨ NoInversion hashNode old new ob nb)
    (hKo : old.arena.Fan K) (hKn : new.arena.Fan K) :
    ∃ ps D, diff hashNode old new = .ok ps ∧ applyPatches parse old ps = .ok D ∧ D.arena.Fan K := by
  obtain ⟨f, hd, hbt⟩ := h.docRel_old
  obtain ⟨S0, ps, w, g, hS0, e, ht, hg, hm, hfr⟩ := h.run hc ho.agree hf (lawful_native parse ob) hd
    (slots := Arena.upd (fun _ => none) 0 (some ob)) (by simp)
  rw [h.reports_nil hc ho.agree ho.same, List.append_nil] at e
  refine ⟨ps, _, e, h.applyPatches_eq parse ps ht.apply, ?_⟩
  have hnd : NoDetours hashNode old new := hf.elim
    (fun hf => noDetours_of_noMoveBelowSelf fun ob' nb' ho' hn' => by
      rw [h.old.body] at ho'; cases ho'
      rw [h.new.body] at hn'; cases hn'
      exact hf) (h.noDetours hc ho.agree)
  exact Fan.trace (root := ob) (hbt.not_surplus _) ht h.old.sound.arena.wf (by simp) hKo fun P hP =>
    ⟨diff_placed h.old.sound h.new.sound hnd hKn e P hP,
      Fan.slimPatch hKn (C54_content_comes_from_the_new_page h.old.sound h.new.sound e P hP)⟩

/-! ### Patches computed from other documents -/

/-- Two versions of a page take turns, and a document of the library is patched each time with the patches
computed from the two versions. -/
def turns (parse : Str → Document) (v w : Document) (D : Document) : Nat → Res Document
  | 0 => .ok D
  | n + 1 => do
    let ps ← diff Shape.node v w
    let D ← applyPatches parse D ps
    let qs ← diff Shape.node w v
    let D ← applyPatches parse D qs
    turns parse v w D n

theorem turns_grow (parse : Str → Document) (hp : ∀ s, (parse s).arena.Sound) : ∀ (n : Nat) {D : Document} {b : Nat}
    {attrs : Attrs} {k : Nat}, D.arena.WF → D.body = some b →
    D.arena.tree b = .element "body".toList attrs (.text "x".toList :: List.replicate k (.text [])) →
    ∃ D', turns parse (.ofForest [.text "x".toList]) (.ofForest [.text "x".toList, ex "i" [] []]) D n = .ok D' ∧
      D'.arena.WF ∧ D'.body = some b ∧
      D'.arena.tree b = .element "body".toList attrs (.text "x".toList :: List.replicate (k + n) (.text []))
  | 0, D, b, attrs, k, hw, hb, ht => ⟨D, rfl, hw, hb, ht⟩
  | n + 1, D, b, attrs, k, hw, hb, ht => by
    have e1 : diff Shape.node (.ofForest [.text "x".toList]) (.ofForest [.text "x".toList, ex "i" [] []]) =
      .ok [.insertElement [0, 1] "i".toList [] [] none] := rfl
    have e2 : diff Shape.node (.ofForest [.text "x".toList, ex "i" [] []]) (.ofForest [.text "x".toList]) =
      .ok [.remove [0, 1]] := rfl
    have r1 : ∃ σ, (Dialect.library (parsedContent parse)).run (Store.init (D.arena.tree b))
        [.insertElement [0, 1] "i".toList [] [] none] = some σ ∧
        σ 0 = some (.element "body".toList attrs
          (.text "x".toList :: ex "i" [] [] :: List.replicate k (.text []))) := by
      rw [ht]
      cases k with
      | zero => exact ⟨_, rfl, rfl⟩
      | succ k => exact ⟨_, rfl, rfl⟩
    obtain ⟨σ, r1, r1'⟩ := r1
    obtain ⟨D1, a1, b1, c1, _, _, w1, _⟩ := C46_patches_rewrite_the_tree parse hw hb hp r1
    rw [r1'] at c1
    have c1 := (Option.some.inj c1).symm
    have r2 : ∃ σ, (Dialect.library (parsedContent parse)).run (Store.init (D1.arena.tree b)) [.remove [0, 1]] =
        some σ ∧ σ 0 = some (.element "body".toList attrs
          (.text "x".toList :: List.replicate (k + 1) (.text []))) := by
      rw [c1]
      exact ⟨_, rfl, rfl⟩
    obtain ⟨σ2, r2, r2'⟩ := r2
    obtain ⟨D2, a2, b2, c2, _, _, w2, _⟩ := C46_patches_rewrite_the_tree parse w1 b1 hp r2
    rw [r2'] at c2
    have c2 := (Option.some.inj c2).symm
    obtain ⟨D3, a3, w3, b3, c3⟩ := turns_grow parse hp n w2 b2 c2
    refine ⟨D3, ?_, w3, b3, by rw [c3, Nat.add_assoc, Nat.add_comm 1 n]⟩
    unfold turns
    simp only [e1, e2, bind, Except.bind, a1, a2]
    exact a3

theorem Arena.WF.fan {A : Arena NodeData} (h : A.WF) {K : Nat}
    (hK : (List.range A.next).all (fun n => decide ((A.children n).length ≤ K)) = true) : A.Fan K := by
  intro n
  by_cases hn : n < A.next
  · simpa using List.all_eq_true.1 hK n (List.mem_range.2 hn)
  · cases e : A.children n with
    | nil => simp
    | cons c cs => exact absurd (h.lt_of_parent c n ((h.mem_iff c n).1 (by simp [e]))).2 hn

/-- **C61** does not hold for a document of the library when the patches are computed from the versions instead
of from the document itself: with two versions that take turns, every turn leaves one more empty text in the
body, so there is no bound. The HTML text does not show it. (In the browser the same patches keep the page within
two children, by `C61_page_does_not_grow_partial`.) -/
theorem C61_violated : ∃ v w : Document, v.Sound ∧ w.Sound ∧ v.arena.Fan 2 ∧ w.arena.Fan 2 ∧
    NoDetours Shape.node v w ∧ NoDetours Shape.node w v ∧
    ∀ (parse : Str → Document), (∀ s, (parse s).arena.Sound) → ∀ n, ∃ D b, turns parse v w v n = .ok D ∧
      D.body = some b ∧ (D.arena.children b).length = n + 1 ∧ D.toBodyHtml = v.toBodyHtml := by
  have h1 : (Document.ofForest [.text "x".toList]).Sound := ofForest_sound _ (by decide +kernel)
  have h2 : (Document.ofForest [.text "x".toList, ex "i" [] []]).Sound := ofForest_sound _ (by decide +kernel)
  refine ⟨.ofForest [.text "x".toList], .ofForest [.text "x".toList, ex "i" [] []], h1, h2,
    h1.arena.wf.fan (by decide +kernel), h2.arena.wf.fan (by decide +kernel), ?_, ?_, fun parse hp n => ?_⟩
  · intro ob nb S ho hn hS
    cases ho; cases hn; cases hS
    decide +kernel
  · intro ob nb S ho hn hS
    cases ho; cases hn; cases hS
    decide +kernel
  · obtain ⟨D, e, hw, hb, ht⟩ := turns_grow parse hp n (b := 2) (attrs := []) (k := 0) h1.arena.wf rfl rfl
    have hf : D.arena.forest 2 = .text "x".toList :: List.replicate n (.text []) := by
      rw [Nat.zero_add, hw.tree_eq] at ht
      cases hk : (D.arena.data 2).kind with
      | element t a => rw [hk] at ht; simp only [Html.ofKind, Html.element.injEq] at ht; exact ht.2.2
      | text s => rw [hk] at ht; cases ht
      | comment s => rw [hk] at ht; cases ht
      | document => rw [hk] at ht; cases ht
    refine ⟨D, 2, e, hb, ?_, ?_⟩
    · have := congrArg List.length hf
      simpa [Arena.forest] using this
    · rw [toBodyHtml_eq, Document.bodyForest, hb]
      show Html.serL false (D.arena.forest 2) = _
      rw [hf]
      show Html.ser false (.text "x".toList) ++ Html.serL false (List.replicate n (.text [])) = _
      have : Html.serL false (List.replicate n (.text [])) = [] := by
        clear e ht hf
        induction n with
        | zero => rfl
        | succ n ih =>
          rw [List.replicate_succ]
          show Html.ser false (.text []) ++ Html.serL false (List.replicate n (.text [])) = []
          rw [ih]; rfl
      rw [this]; rfl

/-- The hypotheses of `C61_document_does_not_grow_partial` hold for `ex1` and `ex2` with three children. -/
example : Comparable (.ofForest ex1) (.ofForest ex2) 2 2 ∧
    OpaqueFixed Shape.node (.ofForest ex1) (.ofForest ex2) 2 2 ∧
    NoMoveBelowSelf Shape.node (.ofForest ex1) (.ofForest ex2) 2 2 ∧
    (Document.ofForest ex1).arena.Fan 3 ∧ (Document.ofForest ex2).arena.Fan 3 :=
  ⟨comparable_ofForest (by decide +kernel) (by decide +kernel),
    opaqueFixed_ofForest (by decide +kernel) (by decide +kernel),
    noMoveBelowSelf_of_movesSafe (by decide +kernel),
    (ofForest_sound _ (by decide +kernel)).arena.wf.fan (by decide +kernel),
    (ofForest_sound _ (by decide +kernel)).arena.wf.fan (by decide +kernel)⟩

/-- The hypotheses of `C61_page_does_not_grow_partial` hold for a page that goes through three versions, and the
updates succeed. -/
example : ((Page.mk (Document.ofForest ex1).arena 2).updates Shape.node WebDom.lenient (.ofForest ex1)
      [.ofForest ex2, .ofForest ex1, .ofForest ex2]).toBool = true ∧
    List.IsChain (NoDetours Shape.node) [.ofForest ex1, .ofForest ex2, .ofForest ex1, .ofForest ex2] ∧
    ∀ D ∈ [Document.ofForest ex1, .ofForest ex2, .ofForest ex1, .ofForest ex2],
      D.Sound ∧ D.arena.Fan 3 ∧ WebDom.lenient.Accepts D := by
  have acc : ∀ D : Document, WebDom.lenient.Accepts D := by
    intro D n tag attrs _
    unfold WebDom.createWithAttrs
    rw [if_pos (show WebDom.lenient.tagOk tag = true from rfl)]
    suffices ∀ (l acc : Attrs), ∃ a, l.foldlM (fun acc kv =>
        WebDom.lenient.setAttribute .html (Wasm.domName kv.1) kv.2 acc) acc = (.ok a : Res Attrs) by
      obtain ⟨a, ha⟩ := this attrs.wire []
      rw [ha]
      exact ⟨_, rfl⟩
    intro l
    induction l with
    | nil => exact fun acc => ⟨acc, rfl⟩
    | cons kv l ih => intro acc; exact ih _
  have h1 : (Document.ofForest ex1).Sound := ofForest_sound _ (by decide +kernel)
  have h2 : (Document.ofForest ex2).Sound := ofForest_sound _ (by decide +kernel)
  have k1 : (Document.ofForest ex1).arena.Fan 3 := h1.arena.wf.fan (by decide +kernel)
  have k2 : (Document.ofForest ex2).arena.Fan 3 := h2.arena.wf.fan (by decide +kernel)
  have c12 : NoDetours Shape.node (.ofForest ex1) (.ofForest ex2) := by
    intro ob nb S ho hn hS
    cases ho; cases hn; cases hS
    decide +kernel
  have c21 : NoDetours Shape.node (.ofForest ex2) (.ofForest ex1) := by
    intro ob nb S ho hn hS
    cases ho; cases hn; cases hS
    decide +kernel
  refine ⟨by decide +kernel, ?_, ?_⟩
  · simp [c12, c21]
  · intro D hD
    simp only [List.mem_cons, List.not_mem_nil, or_false] at hD
    rcases hD with rfl | rfl | rfl | rfl
    · exact ⟨h1, k1, acc _⟩
    · exact ⟨h2, k2, acc _⟩
    · exact ⟨h1, k1, acc _⟩
    · exact ⟨h2, k2, acc _⟩

end Hotmeal
