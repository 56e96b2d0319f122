import Verif.Props.EndToEnd
import Verif.Props.WidgetsLive
import Verif.Props.Server

set_option autoImplicit false
set_option linter.unusedSectionVars false

/-!
# C84 for pages with scripts
-/

namespace Hotmeal

open Reader

mutual
/-- The tree without the content of the elements with certain tags. -/
def Html.hollow (isle : Str → Bool) : Html → Html
  | .element tag as cs => .element tag as (if isle tag then [] else hollowL isle cs)
  | .document => .document
  | .text s => .text s
  | .comment s => .comment s
/-- `hollow` for lists. -/
def Html.hollowL (isle : Str → Bool) : List Html → List Html
  | [] => []
  | c :: cs => c.hollow isle :: hollowL isle cs
end

theorem Html.hollowL_eq (isle : Str → Bool) (cs : List Html) : Html.hollowL isle cs = cs.map (Html.hollow isle) := by
  induction cs with
  | nil => rfl
  | cons c cs ih => simp only [Html.hollowL, ih, List.map_cons]

theorem serAttrs_of_written {a a' : Attrs} (h : a.written = a'.written) : serAttrs a = serAttrs a' := by
  have e : ∀ b : Attrs, serAttrs b = serAttrs (b.written.map fun kv => (⟨none, [], kv.1⟩, kv.2)) := by
    intro b
    simp only [serAttrs, Attrs.written, List.flatMap_map]
    congr 1
  rw [e a, e a', h]

/-- Lists with the same beginning whose rest yields nothing. -/
theorem flatMap_surplus {α β γ : Type} {f : α → List γ} {g : β → List γ} : ∀ {xs : List α} {ys : List β},
    xs.length ≤ ys.length → (∀ y ∈ ys.drop xs.length, g y = []) →
    (∀ (i : Nat) (x : α) (y : β), xs[i]? = some x → ys[i]? = some y → g y = f x) → ys.flatMap g = xs.flatMap f
  | [], ys, _, h, _ => by
    rw [List.flatMap_nil, List.flatMap_eq_nil_iff]
    exact h
  | x :: xs, [], h, _, _ => by simp at h
  | x :: xs, y :: ys, h1, h2, h3 => by
    rw [List.flatMap_cons, List.flatMap_cons, h3 0 x y rfl rfl, flatMap_surplus (xs := xs) (ys := ys)]
    · simpa using h1
    · simpa using h2
    · intro i x y hx hy
      exact h3 (i + 1) x y (by simpa using hx) (by simpa using hy)

/-- What is shown has the same HTML, apart from the content of opaque elements. -/
theorem Shows.hollow {A E : Arena NodeData} (hA : A.WF) (hE : E.WF) {isle : Str → Bool} {b : Nat}
    (hm : ∀ n tag as, A.Anc b n → (A.data n).kind = .element tag as → as.marked = isle tag) {a e : Nat}
    (h : Shows A E a e) : A.Anc b a → ∀ raw, ((E.tree e).hollow isle).ser raw = ((A.tree a).hollow isle).ser raw := by
  induction h with
  | @node a e data len rest kids ih =>
    intro ha raw
    rw [hA.tree_eq, hE.tree_eq]
    cases ek : (A.data a).kind with
    | element tag as =>
      rw [ek] at data
      cases ek' : (E.data e).kind with
      | element tag' as' =>
        rw [ek'] at data
        obtain ⟨rfl, hw⟩ := data
        simp only [Html.ofKind, Html.hollow, Html.ser, serAttrs_of_written hw]
        have hmk := hm a _ _ ha ek
        have ho : (A.data a).isOpaque = isle tag' := by unfold NodeData.isOpaque; rw [ek]; exact hmk
        by_cases hi : isle tag' = true
        · simp only [hi, if_true]
        · have hi : isle tag' = false := by simpa using hi
          rw [hi] at ho
          simp only [hi, Bool.false_eq_true, if_false]
          have : ∀ r, Html.serL r (Html.hollowL isle (E.forest e)) = Html.serL r (Html.hollowL isle (A.forest a)) := by
            intro r
            unfold Arena.forest
            rw [Html.serL_eq, Html.serL_eq, Html.hollowL_eq, Html.hollowL_eq, List.flatMap_map, List.flatMap_map,
              List.flatMap_map, List.flatMap_map]
            refine flatMap_surplus (len ho) (fun y hy => ?_) (fun i x y hx hy => ?_)
            · rw [hE.tree_eq, rest ho y hy]
              cases r <;> rfl
            · exact ih ho i x y hx hy (.step ((hA.mem_iff _ _).1 (List.mem_of_getElem? hx)) ha) r
          rw [this]
      | _ => rw [ek'] at data; cases data
    | _ =>
      rw [ek] at data
      cases ek' : (E.data e).kind with
      | element tag' as' => rw [ek'] at data; exact data.elim
      | _ => rw [ek'] at data; cases data <;> rfl

/-- A page that shows a document has the inner HTML of its body, apart from the content of opaque elements. -/
theorem Staged.hollow {N : QualName → Prop} {D : Document} {b : Nat} {E : Arena NodeData} {eb : Nat}
    (h : Staged N D b E eb) (hD : D.arena.WF) {isle : Str → Bool}
    (hm : ∀ n tag as, D.arena.Anc b n → (D.arena.data n).kind = .element tag as → as.marked = isle tag) :
    Html.serL false (Html.hollowL isle (E.forest eb)) = Html.serL false (Html.hollowL isle (D.arena.forest b)) := by
  unfold Arena.forest
  rw [Html.serL_eq, Html.serL_eq, Html.hollowL_eq, Html.hollowL_eq, List.flatMap_map, List.flatMap_map,
    List.flatMap_map, List.flatMap_map]
  refine flatMap_surplus h.len (fun y hy => ?_) (fun i x y hx hy => ?_)
  · rw [h.wf.tree_eq, h.rest y hy]
    rfl
  · exact (h.kids i x y hx hy).hollow hD h.wf hm (.step ((hD.mem_iff _ _).1 (List.mem_of_getElem? hx)) .refl) false

variable {H : Type} [DecidableEq H] {hashNode : HKind → Option Str → List H → H} {isle : Str → Bool}
  {p q : PageTree} {D E : Document} {b c : Nat}

theorem Parsed.apart (h : Parsed p D b) (h' : Parsed q E c) (hp : p.ok isle = true) (hq : q.ok isle = true) :
    Apart D E b c := by
  intro n m hn hm hs
  unfold NodeData.SameType at hs
  unfold NodeData.isOpaque
  cases e1 : (D.arena.data n).kind with
  | element tag as =>
    cases e2 : (E.arena.data m).kind with
    | element tag' as' =>
      rw [e1, e2] at hs
      simp only
      rw [h.marks hp hn e1, h'.marks hq hm e2, hs.1]
    | _ => rw [e1, e2] at hs; exact hs.elim
  | _ => cases e2 : (E.arena.data m).kind <;> rw [e1, e2] at hs <;> exact hs.elim

theorem Parsed.clearBody (h : Parsed p D b) (hp : p.ok isle = true) : D.ClearBody b := by
  unfold Document.ClearBody
  rw [diffable_isOpaque]
  unfold NodeData.isOpaque
  rw [h.bodyKind]
  simp only [PageTree.ok, Bool.and_eq_true, Bool.not_eq_true'] at hp
  exact hp.1.2

/-- **C84**, partial, for pages with scripts: a browser loads the page of a route and handles every event, while the
server reads and compares the texts that it is given, whatever else is called on it; in between, scripts draw into the
opaque elements. In the end, the body has the inner HTML of the text that is cached, apart from the content of the
opaque elements. Missing: as above; events are handed over as values (as bytes: `C84_session_partial`). -/
theorem C84_scripts_partial (dom : WebDom) {html5 browser : Str → Document} (hs : ParsesPages html5)
    (hb : ParsesPages browser) (route : Str) (served : PageTree → Prop)
    (hok : ∀ p, served p → p.ok isle = true ∧ p.accepted dom = true) {rank : Str → Nat} {m : Nat}
    (hm : rank "body".toList < m) (hl : ∀ p, served p → Html.layeredL rank m (rank "body".toList) p.body = true)
    (hc : ∀ p q, served p → served q → ∀ ob nb, (html5 p.text).body = some ob → (html5 q.text).body = some nb →
      NoCollision hashNode (buildTree (html5 p.text) ob) (diffable (html5 q.text)) nb)
    (S S' : Server) {p0 : PageTree} (hp0 : served p0) (hS : S.html route = some p0.text) (P' : Page)
    (hrun : Session dom (fun a b => diff hashNode (parseWith html5 a) (parseWith html5 b)) (parseWith html5)
      (fun h => (parseWith html5 h).body.getD 0) (loadWith browser) bareName route (fun h => ∃ p, served p ∧ h = p.text)
      True S (loadWith browser p0.text) S' P') :
    ∀ h, S'.html route = some h → ∃ q, served q ∧ h = q.text ∧
      Html.serL false (Html.hollowL isle (P'.arena.forest P'.body)) = Html.serL false (Html.hollowL isle q.body) := by
  have hpb : ∀ p, served p → Parsed p (browser p.text) (loadWith browser p.text).body := by
    intro p hp
    obtain ⟨b, e⟩ := hb.body (hok p hp).1
    have : (loadWith browser p.text).body = b := by unfold loadWith; rw [e]; rfl
    rw [this]
    exact Parsed.of_reads hb (hok p hp).1 e
  have hps : ∀ p, served p → ∃ b, (parseWith html5 p.text).body.getD 0 = b ∧ (html5 p.text).body = some b ∧
      Parsed p (parseWith html5 p.text) b := by
    intro p hp
    obtain ⟨b, e⟩ := hs.body (hok p hp).1
    rw [PageTree.parse_text]
    exact ⟨b, by rw [e]; rfl, e, Parsed.of_reads hs (hok p hp).1 e⟩
  have key := C79_session_partial (hashNode := hashNode) (N := bareName) dom (parseWith html5)
    (fun h => (parseWith html5 h).body.getD 0) (loadWith browser) route (fun h => ∃ p, served p ∧ h = p.text)
    plainNames_bare
    (by
      rintro _ ⟨p, hp, rfl⟩
      have h3 := hpb p hp
      obtain ⟨b, h1, _, h2⟩ := hps p hp
      simp only [h1]
      refine ⟨h3.plain.sound.arena.wf, ?_, h3.elemBelow, by rw [h2.tree]; exact congrArg Html.unq h3.tree, h3.lower⟩
      have hm := (Document.body_spec h3.plain.body).1
      have hm := (h3.plain.sound.arena.wf.mem_iff _ _).1 hm
      exact (h3.plain.sound.arena.wf.lt_of_parent _ _ hm).1)
    (by
      rintro _ _ ⟨p, hp, rfl⟩ ⟨q, hq, rfl⟩
      obtain ⟨b, e1, e2, h1⟩ := hps p hp
      obtain ⟨c, e3, e4, h2⟩ := hps q hq
      simp only [e1, e3]
      have hcm := h1.comparable h2
      have hc' : NoCollision hashNode (buildTree (parseWith html5 p.text) b) (diffable (parseWith html5 q.text)) c := by
        rw [PageTree.parse_text, PageTree.parse_text]
        exact hc p q hp hq b c e2 e4
      have hap := h1.apart h2 (hok p hp).1 (hok q hq).1
      have hcl := h1.clearBody (hok p hp).1
      exact ⟨hcm, hc', hap, hcl, h2.clearBody (hok q hq).1,
        .inr (noInversion_of_layered hcm hc' (hap.agree hcm hcl hc') (h1.layered hm (hl p hp)) (h2.layered hm (hl q hq))),
        h1.names, h2.names, h2.kept (hok q hq).1 (hok q hq).2⟩)
    S S' p0.text hS ⟨p0, hp0, rfl⟩ P' hrun
  intro h hh
  obtain ⟨⟨q, hq, rfl⟩, hst⟩ := key h hh
  obtain ⟨c, e3, e4, h2⟩ := hps q hq
  simp only [e3] at hst
  refine ⟨q, hq, rfl, ?_⟩
  rw [hst.hollow h2.plain.sound.arena.wf fun n tag as ha hk => h2.marks (hok q hq).1 ha hk, h2.below]

/-! ### A concrete session -/

/-- The page of `shopOld` when a script has drawn the cart. -/
def cartDrawn : PageTree :=
  { shopOld with body := shopOld.body.dropLast ++
      [ex "x-cart" [("data-hotmeal-opaque", "")] [ex "p" [] [.text "2 items".toList]]] }

/-- The script draws the cart. -/
theorem cart_scripted : Scripted bareName (readHtml5 shopOld.text) 6 (readHtml5 shopOld.text).arena
    (readHtml5 cartDrawn.text).arena 6 := by
  have h1 : Parsed shopOld (readHtml5 shopOld.text) 6 :=
    Parsed.of_reads (isle := shopIsle) parsesPages_reader shop_ok.1 (by decide +kernel)
  have h2 : Parsed cartDrawn (readHtml5 cartDrawn.text) 6 :=
    Parsed.of_reads (isle := shopIsle) parsesPages_reader (by decide +kernel) (by decide +kernel)
  have w1 := h1.plain.sound.arena.wf
  have w2 := h2.plain.sound.arena
  have hlt : ∀ n, (readHtml5 shopOld.text).arena.Anc 6 n → n < 17 := by
    intro n hn
    have := (w1.mem_descendants _ _).2 hn
    have hall : ((readHtml5 shopOld.text).arena.descendants 6).all (fun n => decide (n < 17)) = true := by
      decide +kernel
    simpa using List.all_eq_true.1 hall n this
  have hd : ∀ n, n < 17 → (readHtml5 cartDrawn.text).arena.data n = (readHtml5 shopOld.text).arena.data n := by
    decide +kernel
  have hk : ∀ n, n < 16 → (readHtml5 cartDrawn.text).arena.children n = (readHtml5 shopOld.text).arena.children n := by
    decide +kernel
  refine ⟨w2.wf, by decide +kernel, h2.lower, fun n ha _ => hd n (hlt n ha), fun n ha _ ho => ?_,
    fun n s _ e => w2.leaf n (.inl ⟨s, e⟩), ?_⟩
  · by_cases e : n = 16
    · subst e
      have hs : Spot (readHtml5 shopOld.text).arena (readHtml5 shopOld.text).arena 6 6 16 16 :=
        .child (i := 3) .root (by decide +kernel) (by decide +kernel) (by decide +kernel)
      have h := ho 16 hs
      have h' : ((readHtml5 shopOld.text).arena.data 16).isOpaque = true := by decide +kernel
      rw [h] at h'
      cases h'
    · have := hlt n ha
      exact hk n (by omega)
  · intro n tag attrs hw e
    obtain ⟨x, u, k1, _, k3, _⟩ := hw
    exact ⟨attrs, rfl, h2.names n tag attrs ((k1.ancE w2.wf).trans k3) e, w2.uniq n tag attrs e⟩

theorem loadWith_arena (browser : Str → Document) (text : Str) : (loadWith browser text).arena = (browser text).arena := rfl

theorem keepStep_html {E : Type} (dom : WebDom) (diffHtml : Str → Str → Except E (List Patch)) (load : Str → Page)
    (S : Server) (p : Page) (route h : Str) :
    (S.keepStep dom diffHtml load route p (.diffRoute route h)).1.html route = some h := by
  have e := (Server.run_html diffHtml S (.diffRoute route h) route).1 h (by simp [Server.Call.carries])
  unfold Server.keepStep
  dsimp only
  rw [apply_ite Prod.fst, ite_self]
  exact e

/-- The server of the session. -/
def shopServer : Server := (Server.new.cacheHtml "/".toList shopOld.text).1

theorem shopServer_html : shopServer.html "/".toList = some shopOld.text := by
  simp [shopServer, Server.cacheHtml, Server.new, Server.put]

/-- `C84_scripts_partial` applies to a session in which a script draws the cart of `shopOld` and then the route gets
`shopNew`. -/
example : ∃ S' P', S'.html "/".toList = some shopNew.text ∧
    Session WebDom.lenient (fun a b => diff Shape.node (parseWith readHtml5 a) (parseWith readHtml5 b))
      (parseWith readHtml5) (fun h => (parseWith readHtml5 h).body.getD 0) (loadWith readHtml5) bareName "/".toList
      (fun h => ∃ p, (p = shopOld ∨ p = shopNew) ∧ h = p.text) True shopServer (loadWith readHtml5 shopOld.text) S' P' ∧
    ∃ q, (q = shopOld ∨ q = shopNew) ∧ shopNew.text = q.text ∧
      Html.serL false (Html.hollowL shopIsle (P'.arena.forest P'.body)) = Html.serL false (Html.hollowL shopIsle q.body) := by
  obtain ⟨h1, h2, v1, v2, h3, h4, h5, h6, h7, h8⟩ := shop_ok
  have hb : (parseWith readHtml5 shopOld.text).body.getD 0 = 6 := by rw [PageTree.parse_text]; decide +kernel
  have hb' : (loadWith readHtml5 shopOld.text).body = 6 := by decide +kernel
  obtain ⟨S', P', hh, hrun⟩ : ∃ S' P', S'.html "/".toList = some shopNew.text ∧
      Session WebDom.lenient (fun a b => diff Shape.node (parseWith readHtml5 a) (parseWith readHtml5 b))
        (parseWith readHtml5) (fun h => (parseWith readHtml5 h).body.getD 0) (loadWith readHtml5) bareName "/".toList
        (fun h => ∃ p, (p = shopOld ∨ p = shopNew) ∧ h = p.text) True shopServer (loadWith readHtml5 shopOld.text) S' P' := by
    refine ⟨_, _, ?_, .script (readHtml5 cartDrawn.text).arena ?_
      (.call (.diffRoute "/".toList shopNew.text) (fun _ => ⟨shopNew, .inr rfl, rfl⟩) (.inl trivial) (.nil _ _))⟩
    · exact keepStep_html _ _ _ _ _ _ _
    · intro h hh
      rw [shopServer_html] at hh
      have hh := Option.some.inj hh
      subst hh
      rw [hb', hb, loadWith_arena, PageTree.parse_text]
      exact cart_scripted
  exact ⟨S', P', hh, hrun, C84_scripts_partial (isle := shopIsle) WebDom.lenient parsesPages_reader parsesPages_reader
    "/".toList (fun p => p = shopOld ∨ p = shopNew) (by rintro p (rfl | rfl); exacts [⟨h1, h4⟩, ⟨h2, h3⟩]) h5
    (by rintro p (rfl | rfl); exacts [h6, h7]) (fun p q _ _ ob nb _ _ => noCollision_shape _ _ _) shopServer S'
    (.inl rfl) shopServer_html P' hrun _ hh⟩

/-- What the client shows at the end of that session. -/
example : ((shopServer.keepStep WebDom.lenient (fun a b => diff Shape.node (parseWith readHtml5 a) (parseWith readHtml5 b))
      (loadWith readHtml5) "/".toList ⟨(readHtml5 cartDrawn.text).arena, 6⟩ (.diffRoute "/".toList shopNew.text)).2.arena.tree
      6).inner =
    ("<x-cart data-hotmeal-opaque=\"\" title=\"Cart\"><p>2 items</p></x-cart>\n<h1 class=\"big\">Shop &amp; sons</h1>" ++
      "<ul id=\"l\"><li><b>two</b></li><li>three<br></li><li>one</li></ul>").toList := by
  decide +kernel

end Hotmeal
