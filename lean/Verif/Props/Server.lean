import Verif.Model.Server
import Verif.Lemmas.List

/-!
# Live-reload server: C27, C29, C30, C42
-/

namespace Hotmeal
namespace Server

variable {E : Type}

/-! ## C27 -/

/-- Specification: the HTML a call carries for a route. -/
def Call.carries (c : Call) (route : Str) : Option Str :=
  match c with
  | .cacheHtml r h | .diffRoute r h | .diffRouteWithHead r h _ => if r = route then some h else none
  | _ => none

/-- Specification: the call drops the route. -/
def Call.drops (c : Call) (route : Str) : Prop :=
  match c with
  | .removeRoute r => r = route
  | .clear => True
  | _ => False

/-- Specification: `h` is the HTML of the last call carrying HTML for the route, and the route was
not dropped since. -/
def LastHtml (calls : List Call) (route h : Str) : Prop :=
  ∃ pre c post, calls = pre ++ c :: post ∧ c.carries route = some h ∧
    ∀ d ∈ post, d.carries route = none ∧ ¬ d.drops route

theorem diffRoute_html (diffHtml : Str → Str → Except E (List Patch)) (S : Server) (r h q : Str) :
    (S.diffRoute diffHtml r h).1.html q = if q = r then some h else S.html q := by
  unfold diffRoute
  split
  · simp [put]
  · next old ho =>
    split
    · next e =>
      subst e
      by_cases e : q = r
      · subst e; simp [ho]
      · simp [e]
    · split
      · split <;> simp [put]
      · simp [put]

theorem run_html (diffHtml : Str → Str → Except E (List Patch)) (S : Server) (c : Call) (q : Str) :
    (∀ h, c.carries q = some h → (S.run diffHtml c).1.html q = some h) ∧
    (c.drops q → (S.run diffHtml c).1.html q = none) ∧
    (c.carries q = none → ¬ c.drops q → (S.run diffHtml c).1.html q = S.html q) := by
  cases c with
  | cacheHtml r h =>
    simp only [Call.carries, Call.drops, run, Server.cacheHtml, put]
    by_cases e : r = q
    · simp [e]
    · simp [e, Ne.symm e]
  | cacheHead r i => simp [Call.carries, Call.drops, run, Server.cacheHead]
  | diffRoute r h =>
    simp only [Call.carries, Call.drops, run, diffRoute_html]
    by_cases e : r = q
    · simp [e]
    · simp [e, Ne.symm e]
  | diffRouteWithHead r h i =>
    have key : (S.diffRouteWithHead diffHtml r h i).1.html q = if q = r then some h else S.html q := by
      unfold Server.diffRouteWithHead
      cases hc : (S.cacheHead r i).2
      · simp only [hc, Bool.false_eq_true, if_false, diffRoute_html]; rfl
      · simp only [hc, if_true, put]; rfl
    simp only [Call.carries, Call.drops, run, key]
    by_cases e : r = q
    · simp [e]
    · simp [e, Ne.symm e]
  | removeRoute r =>
    simp only [Call.carries, Call.drops, run, Server.removeRoute, put]
    by_cases e : r = q
    · simp [e]
    · simp [e, Ne.symm e]
  | clear => simp [Call.carries, Call.drops, run, Server.clear]

/-- **C27.** After any sequence of calls to a fresh server, the cached HTML of a route is the HTML
of the last call that carried HTML for it since it was last removed or cleared. -/
theorem C27_cache_is_last_html (diffHtml : Str → Str → Except E (List Patch)) (calls : List Call)
    (route h : Str) :
    (Server.new.runAll diffHtml calls).html route = some h ↔ LastHtml calls route h := by
  induction calls using List.snocInd generalizing h with
  | nil =>
    simp [runAll, Server.new, LastHtml]
  | snoc calls c ih =>
    have e : Server.new.runAll diffHtml (calls ++ [c]) =
        ((Server.new.runAll diffHtml calls).run diffHtml c).1 := by simp [runAll]
    rw [e]
    obtain ⟨h1, h2, h3⟩ := run_html diffHtml (Server.new.runAll diffHtml calls) c route
    constructor
    · intro hh
      cases hc : c.carries route with
      | some h' =>
        have := h1 h' hc
        rw [this] at hh
        cases hh
        exact ⟨calls, c, [], rfl, hc, by simp⟩
      | none =>
        by_cases hd : c.drops route
        · rw [h2 hd] at hh; cases hh
        · rw [h3 hc hd] at hh
          obtain ⟨pre, c', post, e1, e2, e3⟩ := (ih h).1 hh
          refine ⟨pre, c', post ++ [c], by simp [e1], e2, ?_⟩
          intro d hdm
          rcases List.mem_append.1 hdm with hdm | hdm
          · exact e3 d hdm
          · simp at hdm; subst hdm; exact ⟨hc, hd⟩
    · rintro ⟨pre, c', post, e1, e2, e3⟩
      rcases List.eq_nil_or_concat post with rfl | ⟨post', d, rfl⟩
      · have : calls = pre ∧ c = c' := by simpa using e1
        obtain ⟨rfl, rfl⟩ := this
        exact h1 h e2
      · have : calls = pre ++ c' :: post' ∧ c = d := by
          have e1' : calls ++ [c] = (pre ++ c' :: post') ++ [d] := by simp [e1]
          have := List.append_inj' e1' rfl
          exact ⟨this.1, by simpa using this.2⟩
        obtain ⟨rfl, rfl⟩ := this
        have hd := e3 c (by simp)
        rw [h3 hd.1 hd.2]
        exact (ih h).2 ⟨pre, c', post', rfl, e2, fun d hdm => e3 d (by simp [hdm])⟩

/-- Specification: the head injections a call carries for a route. -/
def Call.carriesHead (c : Call) (route : Str) : Option Str :=
  match c with
  | .cacheHead r i | .diffRouteWithHead r _ i => if r = route then some i else none
  | _ => none

/-- Specification: `i` are the head injections of the last call carrying head injections for the
route, and the route was not dropped since. -/
def LastHead (calls : List Call) (route i : Str) : Prop :=
  ∃ pre c post, calls = pre ++ c :: post ∧ c.carriesHead route = some i ∧
    ∀ d ∈ post, d.carriesHead route = none ∧ ¬ d.drops route

theorem diffRoute_head (diffHtml : Str → Str → Except E (List Patch)) (S : Server) (r h : Str) :
    (S.diffRoute diffHtml r h).1.head = S.head := by
  unfold diffRoute
  split
  · rfl
  · split
    · rfl
    · split
      · split <;> rfl
      · rfl

theorem run_head (diffHtml : Str → Str → Except E (List Patch)) (S : Server) (c : Call) (q : Str) :
    (∀ i, c.carriesHead q = some i → (S.run diffHtml c).1.head q = some i) ∧
    (c.drops q → (S.run diffHtml c).1.head q = none) ∧
    (c.carriesHead q = none → ¬ c.drops q → (S.run diffHtml c).1.head q = S.head q) := by
  cases c with
  | cacheHtml r h => simp [Call.carriesHead, Call.drops, run, Server.cacheHtml]
  | cacheHead r i =>
    simp only [Call.carriesHead, Call.drops, run, Server.cacheHead, put]
    by_cases e : r = q
    · simp [e]
    · simp [e, Ne.symm e]
  | diffRoute r h => simp [Call.carriesHead, Call.drops, run, diffRoute_head]
  | diffRouteWithHead r h i =>
    have key : (S.diffRouteWithHead diffHtml r h i).1.head q = if q = r then some i else S.head q := by
      unfold Server.diffRouteWithHead
      cases hc : (S.cacheHead r i).2
      · simp only [hc, Bool.false_eq_true, if_false, diffRoute_head]; rfl
      · simp only [hc, if_true]; rfl
    simp only [Call.carriesHead, Call.drops, run, key]
    by_cases e : r = q
    · simp [e]
    · simp [e, Ne.symm e]
  | removeRoute r =>
    simp only [Call.carriesHead, Call.drops, run, Server.removeRoute, put]
    by_cases e : r = q
    · simp [e]
    · simp [e, Ne.symm e]
  | clear => simp [Call.carriesHead, Call.drops, run, Server.clear]

/-- **C27**, for the head: after any sequence of calls to a fresh server, the cached head injections
of a route are those of the last call that carried some for it since it was last removed or
cleared. -/
theorem C27_head_is_last (diffHtml : Str → Str → Except E (List Patch)) (calls : List Call)
    (route i : Str) :
    (Server.new.runAll diffHtml calls).head route = some i ↔ LastHead calls route i := by
  induction calls using List.snocInd generalizing i with
  | nil =>
    simp [runAll, Server.new, LastHead]
  | snoc calls c ih =>
    have e : Server.new.runAll diffHtml (calls ++ [c]) =
        ((Server.new.runAll diffHtml calls).run diffHtml c).1 := by simp [runAll]
    rw [e]
    obtain ⟨h1, h2, h3⟩ := run_head diffHtml (Server.new.runAll diffHtml calls) c route
    constructor
    · intro hh
      cases hc : c.carriesHead route with
      | some h' =>
        have := h1 h' hc
        rw [this] at hh
        cases hh
        exact ⟨calls, c, [], rfl, hc, by simp⟩
      | none =>
        by_cases hd : c.drops route
        · rw [h2 hd] at hh; cases hh
        · rw [h3 hc hd] at hh
          obtain ⟨pre, c', post, e1, e2, e3⟩ := (ih i).1 hh
          refine ⟨pre, c', post ++ [c], by simp [e1], e2, ?_⟩
          intro d hdm
          rcases List.mem_append.1 hdm with hdm | hdm
          · exact e3 d hdm
          · simp at hdm; subst hdm; exact ⟨hc, hd⟩
    · rintro ⟨pre, c', post, e1, e2, e3⟩
      rcases List.eq_nil_or_concat post with rfl | ⟨post', d, rfl⟩
      · have : calls = pre ∧ c = c' := by simpa using e1
        obtain ⟨rfl, rfl⟩ := this
        exact h1 i e2
      · have : calls = pre ++ c' :: post' ∧ c = d := by
          have e1' : calls ++ [c] = (pre ++ c' :: post') ++ [d] := by simp [e1]
          have := List.append_inj' e1' rfl
          exact ⟨this.1, by simpa using this.2⟩
        obtain ⟨rfl, rfl⟩ := this
        have hd := e3 c (by simp)
        rw [h3 hd.1 hd.2]
        exact (ih i).2 ⟨pre, c', post', rfl, e2, fun d hdm => e3 d (by simp [hdm])⟩

example : LastHead [.cacheHead "/".toList "a".toList, .diffRouteWithHead "/".toList "b".toList "c".toList,
    .diffRoute "/".toList "d".toList, .removeRoute "/x".toList] "/".toList "c".toList :=
  ⟨[.cacheHead "/".toList "a".toList], .diffRouteWithHead "/".toList "b".toList "c".toList,
    [.diffRoute "/".toList "d".toList, .removeRoute "/x".toList],
    rfl, by decide, by simp [Call.carriesHead, Call.drops]⟩

/-- **C27.** The routes listed are those for which HTML was given and that were not dropped since; a route with a cached
head only is not listed. -/
theorem C27_cached_routes (diffHtml : Str → Str → Except E (List Patch)) (calls : List Call) (route : Str) :
    (Server.new.runAll diffHtml calls).cachedRoutes route ↔ ∃ h, LastHtml calls route h := by
  unfold cachedRoutes
  rw [Option.isSome_iff_exists]
  exact exists_congr fun h => C27_cache_is_last_html diffHtml calls route h

/-- **C27.** A call about one route leaves the cached HTML of every other route unchanged
(`clear` is about all routes). -/
theorem C27_other_routes (diffHtml : Str → Str → Except E (List Patch)) (S : Server) (c : Call)
    (q : Str) (h1 : c.carries q = none) (h2 : ¬ c.drops q) :
    (S.run diffHtml c).1.html q = S.html q :=
  (run_html diffHtml S c q).2.2 h1 h2

/-- **C27.** `cache_html` returns what was cached before, and `remove_route` reports whether
anything was cached. -/
theorem C27_returns (S : Server) (r h : Str) :
    (S.cacheHtml r h).2 = S.html r ∧
    ((S.removeRoute r).2 = true ↔ (∃ x, S.html r = some x) ∨ (∃ x, S.head r = some x)) := by
  refine ⟨rfl, ?_⟩
  simp [removeRoute, Option.isSome_iff_exists]

example : LastHtml [.cacheHtml "/".toList "a".toList, .diffRoute "/".toList "b".toList,
    .removeRoute "/x".toList] "/".toList "b".toList :=
  ⟨[.cacheHtml "/".toList "a".toList], .diffRoute "/".toList "b".toList, [.removeRoute "/x".toList],
    rfl, by decide, by simp [Call.carries, Call.drops]⟩

/-! ## C29 -/

/-- **C29.** `diff_route` returns `Reload` iff the route had no cached HTML or the diff of
different HTML failed. -/
theorem C29_reload_iff (diffHtml : Str → Str → Except E (List Patch)) (S : Server) (r h : Str) :
    (S.diffRoute diffHtml r h).2 = some .reload ↔
      S.html r = none ∨ ∃ old e, S.html r = some old ∧ old ≠ h ∧ diffHtml old h = .error e := by
  unfold diffRoute
  split
  · next hn => simp [hn]
  · next old ho =>
    split
    · next e => simp [ho, e]
    · next hne =>
      split
      · next ps hp => split <;> simp [ho, hp]
      · next e hp => simp [ho, hp, hne]

/-- **C29.** `diff_route` returns nothing iff the HTML is unchanged or needs no patches. -/
theorem C29_none_iff (diffHtml : Str → Str → Except E (List Patch)) (S : Server) (r h : Str) :
    (S.diffRoute diffHtml r h).2 = none ↔
      ∃ old, S.html r = some old ∧ (old = h ∨ diffHtml old h = .ok []) := by
  unfold diffRoute
  split
  · next hn => simp [hn]
  · next old ho =>
    split
    · next e => simp [ho, e]
    · next hne =>
      split
      · next ps hp =>
        split
        · next hps => simp [ho, hp]; right; simpa using hps
        · next hps =>
          simp [ho, hp, hne]
          simpa using hps
      · next e hp => simp [ho, hp, hne]

/-- **C29.** `diff_route` returns `Patches` iff the HTML changed and the diff gave a non-empty
list; that list and the route are what is sent. -/
theorem C29_patches_iff (diffHtml : Str → Str → Except E (List Patch)) (S : Server)
    (r h r' : Str) (ps : List Patch) :
    (S.diffRoute diffHtml r h).2 = some (.patches r' ps) ↔
      r' = r ∧ ps ≠ [] ∧ ∃ old, S.html r = some old ∧ old ≠ h ∧ diffHtml old h = .ok ps := by
  unfold diffRoute
  split
  · next hn => simp [hn]
  · next old ho =>
    split
    · next e => simp [ho, e]
    · next hne =>
      split
      · next qs hp =>
        split
        · next hps =>
          have : qs = [] := by simpa using hps
          subst this
          constructor
          · intro h'; cases h'
          · rintro ⟨_, h1, _, h2, _, h3⟩
            rw [ho] at h2; cases h2
            rw [hp] at h3; cases h3; exact absurd rfl h1
        · next hps =>
          have : qs ≠ [] := by simpa using hps
          constructor
          · intro h'
            cases h'
            exact ⟨rfl, this, old, ho, hne, hp⟩
          · rintro ⟨rfl, _, old', h2, _, h3⟩
            rw [ho] at h2; cases h2; rw [hp] at h3; cases h3; rfl
      · next e hp =>
        constructor
        · intro h'; cases h'
        · rintro ⟨_, _, old', h2, _, h3⟩
          rw [ho] at h2; cases h2; rw [hp] at h3; cases h3

/-- **C29.** `diff_route` never returns `HeadChanged`. -/
theorem C29_no_head (diffHtml : Str → Str → Except E (List Patch)) (S : Server) (r h r' : Str) :
    (S.diffRoute diffHtml r h).2 ≠ some (.headChanged r') := by
  unfold diffRoute
  split
  · simp
  · split
    · simp
    · split
      · split <;> simp
      · simp

/-- Specification: the injections differ from the remembered ones; with none remembered, only
non-empty injections count as a change. -/
def HeadDiffers (S : Server) (r i : Str) : Prop :=
  (∃ old, S.head r = some old ∧ old ≠ i) ∨ (S.head r = none ∧ i ≠ [])

/-- **C29.** `diff_route_with_head` returns `HeadChanged` for the route iff the head injections
changed; otherwise it returns what `diff_route` returns. Either way the injections are
remembered. -/
theorem C29_head (diffHtml : Str → Str → Except E (List Patch)) (S : Server) (r h i : Str) :
    (HeadDiffers S r i → (S.diffRouteWithHead diffHtml r h i).2 = some (.headChanged r)) ∧
    (¬ HeadDiffers S r i →
      (S.diffRouteWithHead diffHtml r h i).2 = (S.diffRoute diffHtml r h).2) ∧
    (S.diffRouteWithHead diffHtml r h i).1.head r = some i := by
  have hch : (S.cacheHead r i).2 = true ↔ HeadDiffers S r i := by
    unfold cacheHead HeadDiffers
    cases S.head r with
    | none => simp
    | some old => simp
  have hev : ∀ S' : Server, S'.html = S.html → (S'.diffRoute diffHtml r h).2 = (S.diffRoute diffHtml r h).2 := by
    intro S' e
    unfold diffRoute
    rw [e]
    split
    · rfl
    · split
      · rfl
      · split
        · split <;> rfl
        · rfl
  have hhead : ∀ S' : Server, (S'.diffRoute diffHtml r h).1.head = S'.head := by
    intro S'
    unfold diffRoute
    split
    · rfl
    · split
      · rfl
      · split
        · split <;> rfl
        · rfl
  refine ⟨?_, ?_, ?_⟩
  · intro hd
    have := hch.2 hd
    simp only [diffRouteWithHead, this, if_true]
  · intro hd
    have hf : (S.cacheHead r i).2 = false := by
      cases hh : (S.cacheHead r i).2
      · rfl
      · exact absurd (hch.1 hh) hd
    simp only [diffRouteWithHead, hf]
    exact hev _ rfl
  · simp only [diffRouteWithHead]
    split
    · simp [cacheHead, put]
    · rw [hhead]; simp [cacheHead, put]

example : HeadDiffers Server.new "/".toList "x".toList := Or.inr ⟨rfl, by decide⟩

end Server

/-! ## C30 -/

/-- Specification: `i` is the first position where `pat` occurs in `s`. -/
def FirstAt (pat s : Str) (i : Nat) : Prop :=
  pat <+: s.drop i ∧ i ≤ s.length ∧ ∀ j < i, ¬ pat <+: s.drop j

theorem findSub_some {pat s : Str} {i : Nat} : findSub pat s = some i ↔ FirstAt pat s i := by
  induction s generalizing i with
  | nil =>
    unfold findSub FirstAt
    cases pat with
    | nil => cases i <;> simp
    | cons x xs => simp
  | cons c cs ih =>
    unfold findSub
    split
    · next h =>
      have hp : pat <+: c :: cs := List.isPrefixOf_iff_prefix.1 h
      constructor
      · intro e; cases e
        exact ⟨hp, by simp, by simp⟩
      · rintro ⟨_, _, h3⟩
        cases i with
        | zero => rfl
        | succ i => exact absurd hp (h3 0 (by omega))
    · next h =>
      have hp : ¬ pat <+: c :: cs := fun h' => h (List.isPrefixOf_iff_prefix.2 h')
      cases i with
      | zero =>
        simp only [Option.map_eq_some_iff]
        constructor
        · rintro ⟨_, _, h⟩; omega
        · rintro ⟨h1, _⟩; exact absurd h1 hp
      | succ i =>
        simp only [Option.map_eq_some_iff, Nat.add_right_cancel_iff, exists_eq_right, ih]
        constructor
        · rintro ⟨h1, h2, h3⟩
          refine ⟨by simpa using h1, by simp; omega, ?_⟩
          intro j hj
          cases j with
          | zero => exact hp
          | succ j => simpa using h3 j (by omega)
        · rintro ⟨h1, h2, h3⟩
          refine ⟨by simpa using h1, by simp at h2; omega, ?_⟩
          intro j hj
          simpa using h3 (j + 1) (by omega)

theorem findSub_none {pat s : Str} (h : findSub pat s = none) : ∀ i ≤ s.length, ¬ pat <+: s.drop i := by
  intro i hi hp
  -- take the least such position
  have : ∃ k, pat <+: s.drop k ∧ k ≤ s.length ∧ ∀ j < k, ¬ pat <+: s.drop j := by
    induction i using Nat.strongRecOn with
    | ind i ih =>
      by_cases hx : ∃ j, j < i ∧ pat <+: s.drop j
      · obtain ⟨j, hj, hjp⟩ := hx
        exact ih j hj (by omega) hjp
      · exact ⟨i, hp, hi, fun j hj hjp => hx ⟨j, hj, hjp⟩⟩
  obtain ⟨k, hk⟩ := this
  rw [findSub_some.2 hk] at h
  cases h

/-- The text starts with `<head`, in any letter case. -/
def HeadAt (s : Str) : Prop := ∃ a b c d rest, s = '<' :: a :: b :: c :: d :: rest ∧ (a = 'h' ∨ a = 'H') ∧
  (b = 'e' ∨ b = 'E') ∧ (c = 'a' ∨ c = 'A') ∧ (d = 'd' ∨ d = 'D')

/-- `i` is the first index at which `<head` is found, in any letter case. -/
def FirstHead (html : Str) (i : Nat) : Prop := HeadAt (html.drop i) ∧ ∀ j < i, ¬ HeadAt (html.drop j)

theorem lowerAscii_eq {c : Char} {l u : Char} (hl : ¬ (65 ≤ l.toNat ∧ l.toNat ≤ 90))
    (hu : ∀ n, n < 91 → 65 ≤ n → (Char.ofNat (n + 32) = l ↔ n = u.toNat))
    (hu2 : 65 ≤ u.toNat ∧ u.toNat ≤ 90) : lowerAscii c = l ↔ c = l ∨ c = u := by
  unfold lowerAscii
  split
  · next h =>
    rw [hu _ (by omega) h.1]
    constructor
    · intro e; exact .inr (Char.toNat_inj.1 e)
    · rintro (rfl | rfl)
      · exact absurd h hl
      · rfl
  · next h =>
    constructor
    · exact .inl
    · rintro (rfl | rfl)
      · rfl
      · exact absurd hu2 h

theorem lowerAscii_eq_lt {c : Char} : lowerAscii c = '<' ↔ c = '<' := by
  unfold lowerAscii
  split
  · next h =>
    have : ∀ n, n < 91 → 65 ≤ n → Char.ofNat (n + 32) ≠ '<' := by decide
    constructor
    · intro e; exact absurd e (this _ (by omega) h.1)
    · rintro rfl; exact absurd h (by decide)
  · rfl

theorem headAt_iff (s : Str) : HeadAt s ↔ "<head".toList <+: s.map lowerAscii := by
  have hh : ∀ c, lowerAscii c = 'h' ↔ c = 'h' ∨ c = 'H' := fun c =>
    lowerAscii_eq (by decide) (by decide) (by decide)
  have he : ∀ c, lowerAscii c = 'e' ↔ c = 'e' ∨ c = 'E' := fun c =>
    lowerAscii_eq (by decide) (by decide) (by decide)
  have ha : ∀ c, lowerAscii c = 'a' ↔ c = 'a' ∨ c = 'A' := fun c =>
    lowerAscii_eq (by decide) (by decide) (by decide)
  have hd : ∀ c, lowerAscii c = 'd' ↔ c = 'd' ∨ c = 'D' := fun c =>
    lowerAscii_eq (by decide) (by decide) (by decide)
  constructor
  · rintro ⟨a, b, c, d, rest, rfl, h1, h2, h3, h4⟩
    refine ⟨rest.map lowerAscii, ?_⟩
    simp only [List.map_cons, (hh a).2 h1, (he b).2 h2, (ha c).2 h3, (hd d).2 h4, lowerAscii_eq_lt.2]
    rfl
  · rintro ⟨t, ht⟩
    rcases s with _ | ⟨x, _ | ⟨a, _ | ⟨b, _ | ⟨c, _ | ⟨d, rest⟩⟩⟩⟩⟩
    all_goals first
      | (exfalso; have := congrArg List.length ht; simp at this; done)
      | skip
    simp only [List.map_cons] at ht
    have ht' : '<' :: 'h' :: 'e' :: 'a' :: 'd' :: t = lowerAscii x :: lowerAscii a :: lowerAscii b ::
      lowerAscii c :: lowerAscii d :: rest.map lowerAscii := ht
    simp only [List.cons.injEq] at ht'
    obtain ⟨h0, h1, h2, h3, h4, _⟩ := ht'
    rw [lowerAscii_eq_lt.1 h0.symm]
    exact ⟨a, b, c, d, rest, rfl, (hh a).1 h1.symm, (he b).1 h2.symm, (ha c).1 h3.symm, (hd d).1 h4.symm⟩

theorem firstHead_iff (html : Str) (i : Nat) :
    FirstHead html i ↔ FirstAt "<head".toList (html.map lowerAscii) i := by
  unfold FirstHead FirstAt
  simp only [headAt_iff, List.map_drop]
  constructor
  · rintro ⟨h1, h2⟩
    refine ⟨h1, ?_, h2⟩
    rcases Nat.lt_or_ge html.length i with h | h
    · rw [List.drop_eq_nil_of_le (by simp; omega)] at h1
      have := h1.length_le
      simp at this
    · simpa using h
  · rintro ⟨h1, _, h2⟩; exact ⟨h1, h2⟩

/-- **C30.** With a `<head` (any letter case) whose tag is closed, the content goes right after the
first `>` that follows the first `<head`. -/
theorem C30_after_head (html content : Str) (i j : Nat)
    (hi : FirstHead html i) (hj : FirstAt ['>'] (html.drop i) j) :
    ∃ pre suf, html = pre ++ suf ∧ pre.length = i + j + 1 ∧ pre.getLast? = some '>' ∧
      injectIntoHead html content = pre ++ content ++ suf := by
  refine ⟨html.take (i + j + 1), html.drop (i + j + 1), by simp, ?_, ?_, ?_⟩
  · obtain ⟨h1, h2, _⟩ := hj
    rw [List.drop_drop] at h1
    have := h1.length_le
    simp at this ⊢
    omega
  · obtain ⟨h1, h2, _⟩ := hj
    rw [List.drop_drop] at h1
    obtain ⟨t, ht⟩ := h1
    have hlt : i + j < html.length := by
      rcases Nat.lt_or_ge (i + j) html.length with h | h
      · exact h
      · rw [List.drop_eq_nil_of_le h] at ht; simp at ht
    rw [List.take_succ_eq_append_getElem hlt, List.getLast?_concat]
    rw [List.drop_eq_getElem_cons hlt] at ht
    have ht' := (List.cons.inj ht).1
    rw [← ht']
  · unfold injectIntoHead
    rw [findSub_some.2 ((firstHead_iff html i).1 hi)]
    simp only [findSub_some.2 hj]

/-- **C30.** Without a `<head`, or when no `>` follows the first one, the content goes to the very
start. -/
theorem C30_prepend (html content : Str)
    (h : (∀ i, ¬ HeadAt (html.drop i)) ∨ ∃ i, FirstHead html i ∧ '>' ∉ html.drop i) :
    injectIntoHead html content = content ++ html := by
  unfold injectIntoHead
  split
  · rfl
  · next i hi =>
    rw [findSub_some] at hi
    replace hi : FirstHead html i := (firstHead_iff html i).2 hi
    split
    · rfl
    · next j hj =>
      exfalso
      rw [findSub_some] at hj
      rcases h with h | ⟨i', h1, h2⟩
      · exact h i hi.1
      · have : i' = i := by
          rcases Nat.lt_trichotomy i i' with h' | h' | h'
          · exact absurd hi.1 (h1.2 i h')
          · exact h'.symm
          · exact absurd h1.1 (hi.2 i' h')
        subst this
        apply h2
        have : '>' ∈ (html.drop i').drop j := hj.1.subset (List.mem_cons_self)
        exact List.mem_of_mem_drop this

/-- **C30.** In every case nothing of the page is lost or reordered. -/
theorem C30_nothing_lost (html content : Str) :
    ∃ pre suf, html = pre ++ suf ∧ injectIntoHead html content = pre ++ content ++ suf := by
  unfold injectIntoHead
  split
  · exact ⟨[], html, by simp, by simp⟩
  · next i _ =>
    split
    · exact ⟨[], html, by simp, by simp⟩
    · next j _ => exact ⟨html.take (i + j + 1), html.drop (i + j + 1), by simp, rfl⟩

example : injectIntoHead "<!doctype html><HEAD class=x><title>".toList "NEW".toList =
    "<!doctype html><HEAD class=x>NEW<title>".toList := by decide +kernel

/-- Finding: the search is for the text `<head`, so a page whose first such text is `<header>` gets
the content inside the header element. -/
theorem C30_header_is_taken_for_head :
    injectIntoHead "<header>hi</header>".toList "NEW".toList = "<header>NEWhi</header>".toList := by
  decide +kernel

/-! ## C42 -/

/-- **C42.** Every delay is between 100 and 5000 ms, starting from the initial back-off. -/
theorem C42_bounds (outcomes : List Bool) : ∀ d ∈ backoffRun 100 outcomes, 100 ≤ d ∧ d ≤ 5000 := by
  have key : ∀ b, 100 ≤ b → b ≤ 5000 → ∀ d ∈ backoffRun b outcomes, 100 ≤ d ∧ d ≤ 5000 := by
    induction outcomes with
    | nil => simp [backoffRun]
    | cons ok oks ih =>
      intro b h1 h2 d hd
      simp only [backoffRun, List.mem_cons] at hd
      rcases hd with rfl | hd
      · simp only [backoffStep]; split <;> omega
      · refine ih _ ?_ ?_ d hd <;> simp only [backoffStep] <;> split <;> omega
  exact key 100 (by omega) (by omega)

/-- **C42.** While sessions keep failing the delay never decreases, and it reaches 5000 ms. -/
theorem C42_monotone_on_failure (b n : Nat) (h1 : 100 ≤ b) (h2 : b ≤ 5000) :
    (backoffRun b (List.replicate n false)).Pairwise (· ≤ ·) ∧
    ∀ d ∈ backoffRun b (List.replicate n false), b ≤ d := by
  induction n generalizing b with
  | zero => simp [backoffRun]
  | succ n ih =>
    simp only [List.replicate_succ, backoffRun, backoffStep, Bool.false_eq_true, if_false]
    obtain ⟨i1, i2⟩ := ih (min (b * 2) 5000) (by omega) (by omega)
    refine ⟨List.pairwise_cons.2 ⟨?_, i1⟩, ?_⟩
    · intro d hd; have := i2 d hd; omega
    · intro d hd
      rcases List.mem_cons.1 hd with rfl | hd
      · omega
      · have := i2 d hd; omega

/-- **C42.** The k-th consecutive failure after a success waits `min (100 * 2^k) 5000` ms. -/
theorem C42_exact (k : Nat) (b : Nat) (n : Nat) (hk : k < n) :
    (backoffRun b (true :: List.replicate n false))[k]? = some (min (100 * 2 ^ k) 5000) := by
  have key : ∀ n k c, k < n → c ≤ 5000 →
      (backoffRun c (List.replicate n false))[k]? = some (min (c * 2 ^ k) 5000) := by
    intro n
    induction n with
    | zero => intro k c h; omega
    | succ n ih =>
      intro k c hk hc
      simp only [List.replicate_succ, backoffRun, backoffStep, Bool.false_eq_true, if_false]
      cases k with
      | zero => simp; omega
      | succ k =>
        rw [List.getElem?_cons_succ, ih k _ (by omega) (by omega)]
        congr 1
        rw [Nat.pow_succ]
        have hp : 0 < 2 ^ k := Nat.pow_pos (by omega)
        rcases Nat.le_total (c * 2) 5000 with h | h
        · rw [Nat.min_eq_left h, Nat.mul_comm (2 ^ k) 2, Nat.mul_assoc]
        · have h1 : 5000 * 1 ≤ 5000 * 2 ^ k := Nat.mul_le_mul_left _ hp
          have h2 : 5000 * 1 ≤ c * (2 ^ k * 2) := by
            rw [Nat.mul_comm (2 ^ k) 2, ← Nat.mul_assoc]
            exact Nat.mul_le_mul h hp
          rw [Nat.min_eq_right h]; omega
  cases k with
  | zero => simp [backoffRun, backoffStep]
  | succ k =>
    simp only [backoffRun, backoffStep, if_true, List.getElem?_cons_succ]
    rw [key n k _ (by omega) (by omega), Nat.pow_succ]
    congr 1
    rw [Nat.min_eq_left (by omega : 100 * 2 ≤ 5000), Nat.mul_comm (2 ^ k) 2, Nat.mul_assoc]

/-- **C42.** After a session that ended without error the next delay is 100 ms, whatever came
before. -/
theorem C42_reset (pre post : List Bool) (b : Nat) :
    (backoffRun b (pre ++ true :: post))[pre.length]? = some 100 := by
  induction pre generalizing b with
  | nil => simp [backoffRun, backoffStep]
  | cons x xs ih => simp [backoffRun, ih]

example : backoffRun 100 [false, false, false, false, false, false, false, true, false] =
    [100, 200, 400, 800, 1600, 3200, 5000, 100, 200] := by decide

end Hotmeal
