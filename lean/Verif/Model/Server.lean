import Verif.Model.Diff

/-!
# Live-reload server (hotmeal-server/src/lib.rs) and client back-off (hotmeal-wasm/src/lib.rs)
-/

namespace Hotmeal

/-- `LiveReloadEvent`, hotmeal-server/src/lib.rs:60-70. The patches are kept as a list; the
bytes `patches_blob` are in `Model/Postcard`. -/
inductive Event
  | reload
  | patches (route : Str) (ps : List Patch)
  | headChanged (route : Str)
  deriving Inhabited

/-- `LiveReloadServer`, hotmeal-server/src/lib.rs:90-95. A `HashMap` is a partial function. -/
structure Server where
  html : Str → Option Str
  head : Str → Option Str

namespace Server

/-- `HashMap::insert` / `HashMap::remove`. hotmeal-server/src/lib.rs:107, 114, 131, 212. -/
def put (m : Str → Option Str) (k : Str) (v : Option Str) : Str → Option Str :=
  fun k' => if k' = k then v else m k'

/-- `LiveReloadServer::new`, lib.rs:98-103. -/
def new : Server := ⟨fun _ => none, fun _ => none⟩

/-- `cache_html`, lib.rs:106-108. Returns the previous HTML. -/
def cacheHtml (S : Server) (route html : Str) : Server × Option Str :=
  ({ S with html := put S.html route (some html) }, S.html route)

/-- `cache_head_injections`, lib.rs:111-119. -/
def cacheHead (S : Server) (route inj : Str) : Server × Bool :=
  ({ S with head := put S.head route (some inj) },
   match S.head route with
   | some old => decide (old ≠ inj)
   | none => !inj.isEmpty)

/-- `diff_route`, lib.rs:122-181. `diffHtml` is `hotmeal::diff_html` (parse both, then diff);
`into_owned` is the identity (`C35_into_owned`). -/
def diffRoute {E : Type} (diffHtml : Str → Str → Except E (List Patch)) (S : Server)
    (route html : Str) : Server × Option Event :=
  match S.html route with
  | none => ({ S with html := put S.html route (some html) }, some .reload)
  | some old =>
    if old = html then (S, none)
    else match diffHtml old html with
      | .ok ps =>
        if ps.isEmpty then ({ S with html := put S.html route (some html) }, none)
        else ({ S with html := put S.html route (some html) }, some (.patches route ps))
      | .error _ => ({ S with html := put S.html route (some html) }, some .reload)

/-- `diff_route_with_head`, lib.rs:187-203. -/
def diffRouteWithHead {E : Type} (diffHtml : Str → Str → Except E (List Patch)) (S : Server)
    (route html inj : Str) : Server × Option Event :=
  let (S, changed) := S.cacheHead route inj
  if changed then
    ({ S with html := put S.html route (some html) }, some (.headChanged route))
  else S.diffRoute diffHtml route html

/-- `cached_routes`, lib.rs:206-208, as a set. -/
def cachedRoutes (S : Server) : Str → Prop := fun r => (S.html r).isSome

/-- `remove_route`, lib.rs:211-215. -/
def removeRoute (S : Server) (route : Str) : Server × Bool :=
  (⟨put S.html route none, put S.head route none⟩, (S.html route).isSome || (S.head route).isSome)

/-- `clear`, lib.rs:218-221. -/
def clear (_ : Server) : Server := ⟨fun _ => none, fun _ => none⟩

/-- A call to the public API of `LiveReloadServer`. lib.rs:98-222. -/
inductive Call
  | cacheHtml (route html : Str)
  | cacheHead (route inj : Str)
  | diffRoute (route html : Str)
  | diffRouteWithHead (route html inj : Str)
  | removeRoute (route : Str)
  | clear

/-- State and event after one call. lib.rs:98-222. -/
def run {E : Type} (diffHtml : Str → Str → Except E (List Patch)) (S : Server) :
    Call → Server × Option Event
  | .cacheHtml r h => ((S.cacheHtml r h).1, none)
  | .cacheHead r i => ((S.cacheHead r i).1, none)
  | .diffRoute r h => S.diffRoute diffHtml r h
  | .diffRouteWithHead r h i => S.diffRouteWithHead diffHtml r h i
  | .removeRoute r => ((S.removeRoute r).1, none)
  | .clear => (S.clear, none)

/-- State after a sequence of calls. For calls of the functions at lib.rs:98-222. -/
def runAll {E : Type} (diffHtml : Str → Str → Except E (List Patch)) (S : Server)
    (calls : List Call) : Server :=
  calls.foldl (fun S c => (S.run diffHtml c).1) S

end Server

/-! ## `inject_into_head` -/

/-- `str::find`: index of the first occurrence. Indices are in characters rather than bytes;
ASCII lowercasing keeps both. Used at lib.rs:237. -/
def findSub (pat : Str) : Str → Option Nat
  | [] => if pat.isEmpty then some 0 else none
  | c :: cs => if pat.isPrefixOf (c :: cs) then some 0 else (findSub pat cs).map (· + 1)

/-- `inject_into_head`, lib.rs:234-254. -/
def injectIntoHead (html content : Str) : Str :=
  match findSub "<head".toList (html.map lowerAscii) with
  | none => content ++ html
  | some i => match findSub ['>'] (html.drop i) with
    | none => content ++ html
    | some j => html.take (i + j + 1) ++ content ++ html.drop (i + j + 1)

/-! ## Reconnect back-off -/

/-- One iteration of `live_reload_loop`, hotmeal-wasm/src/lib.rs:258-275: given the current
back-off and whether the session ended without error, the delay slept and the next back-off. -/
def backoffStep (backoff : Nat) (ok : Bool) : Nat × Nat :=
  let b := if ok then 100 else backoff
  (b, min (b * 2) 5000)

/-- Delays slept for a sequence of session outcomes, hotmeal-wasm/src/lib.rs:254-275. -/
def backoffRun : Nat → List Bool → List Nat
  | _, [] => []
  | b, ok :: oks => (backoffStep b ok).1 :: backoffRun (backoffStep b ok).2 oks

end Hotmeal
