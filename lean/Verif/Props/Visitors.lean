import Verif.Props.Reconnect
import Verif.Model.Visitors

set_option autoImplicit false
set_option linter.unusedSectionVars false

/-!
# C72: several browsers with the same page open
-/

namespace Hotmeal

open Server

variable {H : Type} [DecidableEq H] {hashNode : HKind → Option Str → List H → H} {N : QualName → Prop}

/-- Everyone who asks for the page gets what the server has cached for it, or is the first one. `n` is the number of
pages open so far. -/
def Server.ServesCached {E : Type} (diffHtml : Str → Str → Except E (List Patch)) (ok : Str → Prop) (route : Str)
    (S : Server) (n : Nat) : List Happening → Prop
  | [] => True
  | .visit html :: hs => ok html ∧ (n = 0 ∨ S.html route = some html) ∧
    Server.ServesCached diffHtml ok route (S.cacheHtml route html).1 (n + 1) hs
  | .call c :: hs => c.Follows ok route ∧ Server.ServesCached diffHtml ok route (S.run diffHtml c).1 n hs

/-- The number of visits. -/
def visits : List Happening → Nat
  | [] => 0
  | .visit _ :: hs => visits hs + 1
  | .call _ :: hs => visits hs

theorem Server.broadcast_shows {φ : List Html → List Html} (dom : WebDom)
    (parse : Str → Document) (body : Str → Nat) (load : Str → Page) (route : Str) (ok : Str → Prop)
    (hN : PlainNames N) (hload : ∀ h, ok h → (load h).Loads (parse h) (body h))
    (hpair : ∀ a b, ok a → ok b → Updatable dom hashNode N True (parse a) (parse b) (body a) (body b))
    (S : Server) (c : Call) (hc : c.Follows ok route) : ∀ ps : List Page,
    (∀ h, S.html route = some h → ok h ∧ ∀ p ∈ ps, p.Shows N φ (parse h) (body h)) →
    ∃ ps', S.broadcast dom (fun a b => diff hashNode (parse a) (parse b)) load route c ps = .ok ps' ∧
      ps'.length = ps.length ∧
      ∀ h, (S.run (fun a b => diff hashNode (parse a) (parse b)) c).1.html route = some h →
        ∀ p ∈ ps', ok h ∧ p.Shows N φ (parse h) (body h) := by
  intro ps
  induction ps with
  | nil => intro _; exact ⟨[], rfl, rfl, fun _ _ p hp => by cases hp⟩
  | cons p ps ih =>
    intro hinv
    obtain ⟨ps', e1, e2, e3⟩ := ih fun h hh => ⟨(hinv h hh).1, fun q hq => (hinv h hh).2 q (by simp [hq])⟩
    rcases Server.live_step (φ := φ) (strict := True) dom parse body load route ok hN hload hpair (.inl trivial) S p c
      hc (fun h hh => ⟨(hinv h hh).1, (hinv h hh).2 p (by simp)⟩) with ⟨p', h1, h2⟩ | ⟨hs, _⟩
    · refine ⟨p' :: ps', by simp only [broadcast, h1, e1, bind, Except.bind], by simp [e2], ?_⟩
      intro h hh q hq
      rcases List.mem_cons.1 hq with rfl | hq
      · exact h2 h hh
      · exact e3 h hh q hq
    · exact absurd trivial hs

theorem Server.run_ok (dom : WebDom) (parse : Str → Document) (body : Str → Nat) (route : Str) (ok : Str → Prop)
    (S : Server) (c : Call) (hc : c.Follows ok route) (hS : ∀ h, S.html route = some h → ok h) {h : Str}
    (hh : (S.run (fun a b => diff hashNode (parse a) (parse b)) c).1.html route = some h) : ok h := by
  have hd : ∀ (S : Server) r h', (∀ h, S.html route = some h → ok h) → (r = route → ok h') →
      ∀ h, (S.diffRoute (fun a b => diff hashNode (parse a) (parse b)) r h').1.html route = some h → ok h := by
    intro S r h' hS hr h
    have hp : ∀ h, Server.put S.html r (some h') route = some h → ok h := by
      intro h e
      unfold Server.put at e
      split at e
      · next er => cases e; exact hr er.symm
      · exact hS h e
    unfold Server.diffRoute
    split
    · exact hp h
    · split
      · exact hS h
      · split
        · split <;> exact hp h
        · exact hp h
  cases c with
  | cacheHtml r h' =>
    simp only [Server.run, Server.cacheHtml, Server.put] at hh
    rw [if_neg (fun e => hc e.symm)] at hh
    exact hS h hh
  | cacheHead r i => exact hS h hh
  | removeRoute r =>
    simp only [Server.run, Server.removeRoute, Server.put] at hh
    split at hh
    · cases hh
    · exact hS h hh
  | clear => cases hh
  | diffRoute r h' => exact hd S r h' hS hc h hh
  | diffRouteWithHead r h' i =>
    simp only [Server.run, Server.diffRouteWithHead] at hh
    split at hh
    · simp only [Server.put] at hh
      split at hh
      · next er => cases hh; exact hc er.symm
      · exact hS h hh
    · exact hd (S.cacheHead r i).1 r h' hS hc h hh

theorem Server.visit_invariant {φ : List Html → List Html} (dom : WebDom)
    (parse : Str → Document) (body : Str → Nat) (load : Str → Page) (route : Str) (ok : Str → Prop)
    (hN : PlainNames N) (hload : ∀ h, ok h → (load h).Loads (parse h) (body h))
    (hpair : ∀ a b, ok a → ok b → Updatable dom hashNode N True (parse a) (parse b) (body a) (body b)) :
    ∀ (hs : List Happening) (S : Server) (ps : List Page),
      S.ServesCached (fun a b => diff hashNode (parse a) (parse b)) ok route ps.length hs →
      (∀ h, S.html route = some h → ok h ∧ ∀ p ∈ ps, p.Shows N φ (parse h) (body h)) →
      ∃ S' ps', S.visitRun dom (fun a b => diff hashNode (parse a) (parse b)) load route ps hs = .ok (S', ps') ∧
        ps'.length = ps.length + visits hs ∧
        ∀ h, S'.html route = some h → ok h ∧ ∀ p ∈ ps', p.Shows N φ (parse h) (body h) := by
  intro hs
  induction hs with
  | nil => intro S ps _ hinv; exact ⟨S, ps, rfl, rfl, hinv⟩
  | cons x hs ih =>
    intro S ps hsc hinv
    cases x with
    | visit html =>
      obtain ⟨h1, h2, h3⟩ := hsc
      obtain ⟨S', ps', e1, e2, e3⟩ := ih (S.cacheHtml route html).1 (ps ++ [load html])
        (by simpa using h3) (by
          intro h hh
          simp only [Server.cacheHtml, Server.put, if_true, Option.some.injEq] at hh
          subst hh
          refine ⟨h1, fun p hp => ?_⟩
          rcases List.mem_append.1 hp with hp | hp
          · rcases h2 with h2 | h2
            · rw [List.length_eq_zero_iff.1 h2] at hp; cases hp
            · exact (hinv _ h2).2 p hp
          · simp only [List.mem_singleton] at hp
            subst hp
            exact (hload _ h1).shows (hpair _ _ h1 h1).comparable.old (hpair _ _ h1 h1).names.1 φ)
      exact ⟨S', ps', e1, by rw [e2]; simp only [List.length_append, List.length_singleton, visits]; omega, e3⟩
    | call c =>
      obtain ⟨h1, h2⟩ := hsc
      obtain ⟨ps1, e1, e2, e3⟩ := Server.broadcast_shows (φ := φ) dom parse body load route ok hN hload hpair S c h1 ps hinv
      obtain ⟨S', ps', e4, e5, e6⟩ := ih (S.run (fun a b => diff hashNode (parse a) (parse b)) c).1 ps1
        (by rw [e2]; exact h2)
        fun h hh => ⟨Server.run_ok dom parse body route ok S c h1 (fun h hh => (hinv h hh).1) hh,
          fun p hp => (e3 h hh p hp).2⟩
      exact ⟨S', ps', by simp only [visitRun, e1, bind, Except.bind, e4], by rw [e5, e2]; rfl, e6⟩

/-- **C72**, partial: when everyone is served what the server has cached, all browsers that have the route open
show the cached HTML after any sequence of visits and calls. Missing: pages served after the content has changed and
before the server was told (`C72_violated`), and what is missing from `C28_client_converges_partial`. -/
theorem C72_every_visitor_sees_the_page_partial (dom : WebDom) (parse : Str → Document) (body : Str → Nat)
    (load : Str → Page) (route : Str) (ok : Str → Prop) (hN : PlainNames N)
    (hload : ∀ h, ok h → (load h).Loads (parse h) (body h))
    (hpair : ∀ a b, ok a → ok b → Updatable dom hashNode N True (parse a) (parse b) (body a) (body b))
    (hs : List Happening)
    (hsc : Server.new.ServesCached (fun a b => diff hashNode (parse a) (parse b)) ok route 0 hs) :
    ∃ S ps, Server.new.visitRun dom (fun a b => diff hashNode (parse a) (parse b)) load route [] hs = .ok (S, ps) ∧
      ps.length = visits hs ∧
      ∀ h, S.html route = some h → ∀ p ∈ ps, (p.arena.tree p.body).inner = (parse h).toBodyHtml := by
  obtain ⟨S, ps, e1, e2, e3⟩ := Server.visit_invariant (φ := Html.pruneL) dom parse body load route ok hN hload hpair hs
    Server.new [] hsc (fun h hh => by cases hh)
  refine ⟨S, ps, e1, by simpa using e2, fun h hh p hp => ?_⟩
  obtain ⟨h1, h2⟩ := e3 h hh
  have hu := hpair h h h1 h1
  exact (h2 p hp).1.html hu.comparable.old (hu.comparable.body_clear hu.noCollision hu.opaqueAgree)

/-- **C72** is violated, whatever the two versions are: the first browser loads the page, the content changes, a
second browser loads the page, and then the application tells the server about the change. The server has cached the
new version for the second browser, so it sends nothing, and the first browser keeps the old version. -/
theorem C72_violated {E : Type} (dom : WebDom) (diffHtml : Str → Str → Except E (List Patch)) (load : Str → Page)
    (route a b : Str) :
    ∃ S, Server.new.visitRun dom diffHtml load route [] [.visit a, .visit b, .call (.diffRoute route b)] =
        .ok (S, [load a, load b]) ∧ S.html route = some b := by
  have e1 : ((Server.new.cacheHtml route a).1.cacheHtml route b).1.html route = some b := by
    simp [Server.cacheHtml, Server.put]
  have e2 : ((Server.new.cacheHtml route a).1.cacheHtml route b).1.diffRoute diffHtml route b =
      (((Server.new.cacheHtml route a).1.cacheHtml route b).1, none) := by
    unfold Server.diffRoute
    rw [e1]
    simp
  refine ⟨((Server.new.cacheHtml route a).1.cacheHtml route b).1, ?_, e1⟩
  simp only [visitRun, List.nil_append, List.cons_append, broadcast, liveStep, Server.run, e2, Call.route, if_true,
    Page.deliver, bind, Except.bind]

/-- **C72** is violated further: the next change is sent as patches for the new version, and the first browser
applies them to the old one, without any error. It shows a page that never existed. -/
theorem C72_violated_mixture : ∃ cs ds : List Html, Html.plainL cs = true ∧ Html.plainL ds = true ∧
    (∀ a b, NoMoveBelowSelf Shape.node (toyParse cs ds a) (toyParse cs ds b) 2 2) ∧
    (match Server.new.visitRun WebDom.lenient
        (fun a b => diff Shape.node (toyParse cs ds a) (toyParse cs ds b)) (toyLoad cs ds) ['r'] []
        [.visit ['a'], .visit ['b'], .call (.diffRoute ['r'] ['b']), .call (.diffRoute ['r'] ['a'])] with
      | .ok (S, [p, q]) => decide (S.html ['r'] = some ['a'] ∧
          (toyParse cs ds ['a']).toBodyHtml = "<h></h><u></u><v></v><w></w>".toList ∧
          (q.arena.tree q.body).inner = "<h></h><u></u><v></v><w></w>".toList ∧
          (p.arena.tree p.body).inner = "<h></h><h></h><u></u><v></v>".toList)
      | _ => false) = true :=
  ⟨[ex "h" [] [], ex "u" [] [], ex "v" [] [], ex "w" [] []], [ex "u" [] [], ex "v" [] [], ex "w" [] []],
    by decide +kernel, by decide +kernel, by
      intro a b
      unfold toyParse
      split <;> split <;> exact noMoveBelowSelf_of_movesSafe (by decide +kernel), by decide +kernel⟩

/-- Two browsers, both served what is cached, then a change: the hypothesis on the sequence of the partial theorem.
`Updatable` and `Page.Loads` are as in the example for `C28_client_converges_partial`. -/
example : Server.new.ServesCached (fun a b => diff Shape.node (toyParse ex1 ex2 a) (toyParse ex1 ex2 b))
      (fun _ => True) ['r'] 0
      [.visit ['a'], .visit ['a'], .call (.diffRoute ['r'] ['b']), .call (.cacheHtml ['s'] ['a']), .visit ['b']] ∧
    (Server.new.visitRun WebDom.lenient (fun a b => diff Shape.node (toyParse ex1 ex2 a) (toyParse ex1 ex2 b))
      (toyLoad ex1 ex2) ['r'] [] [.visit ['a'], .visit ['a'], .call (.diffRoute ['r'] ['b'])]).toBool = true := by
  refine ⟨⟨trivial, .inl rfl, trivial, .inr rfl, fun _ => trivial, (fun h => by cases h), trivial, .inr ?_, trivial⟩, by decide +kernel⟩
  decide +kernel

end Hotmeal
