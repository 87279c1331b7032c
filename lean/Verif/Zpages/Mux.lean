import Verif.Basic
import Verif.Wire.Hex

/-!
# Where the z-pages are served (zpages/zpages.go:40-71, zpages/internal/resources.go:135-150, 190-290)

Packages `path` and `net/http` are taken from their source: `path.Clean` as components and a stack, `ServeMux` as in the Go versions
before 1.22 (later ones treat the patterns of this package in the same way, apart from braces in them, and refuse a pattern without a
slash), `http.FileServer` without the content of files. Requests are not `CONNECT`. `Handle` also registers the RPC views and enables
the span store (`Verif.Zpages.Rpcz`, `Verif.Trace.Store`).
-/

namespace Verif.Zpages.Mux
open Verif
open Verif.Wire (split join)

/-! ## Paths -/

/-- The loop of `path.Clean` over the components; the stack is reversed. -/
def walk (rooted : Bool) : List Bytes → List Bytes → List Bytes
  | st, [] => st.reverse
  | st, s :: l =>
    if s = [] ∨ s = [46] then walk rooted st l
    else if s = [46, 46] then
      match st with
      | t :: st' => if t = [46, 46] then walk rooted (s :: st) l else walk rooted st' l
      | [] => if rooted then walk rooted [] l else walk rooted [s] l
    else walk rooted (s :: st) l

/-- `path.Clean`. -/
def clean (p : Bytes) : Bytes :=
  if p.head? = some 47 then 47 :: join 47 (walk true [] (split 47 p))
  else
    let l := walk false [] (split 47 p)
    if l = [] then [46] else join 47 l

/-- `path.Join(a, b)` with `b` not empty. -/
def pathJoin (a b : Bytes) : Bytes := if a ≠ [] then clean (a ++ 47 :: b) else clean b

/-- `cleanPath` of package `net/http`. -/
def cleanPath (p : Bytes) : Bytes :=
  if p = [] then [47]
  else
    let p := if p.head? = some 47 then p else 47 :: p
    let np := clean p
    if p.getLast? = some 47 ∧ np ≠ [47] then np ++ [47] else np

/-! ## `ServeMux` -/

/-- What is registered: the pages, the file server, and the handlers of the program. -/
inductive Handler where
  | rpcz | tracez | files
  | other (n : Nat)
  deriving DecidableEq, Repr

/-- `ServeMux.m`. `es`, the patterns that end in a slash from the longest to the shortest, and `hosts` follow from it. -/
abbrev Mux := GoMap Bytes Handler

/-- `ServeMux.Handle`; handlers are not nil. -/
def Mux.handle (m : Mux) (pattern : Bytes) (h : Handler) : Res Mux :=
  if pattern = [] then .panic
  else if (GoMap.get m pattern).isSome then .panic
  else .ok (GoMap.set m pattern h)

/-- The longest pattern that ends in a slash and begins the path. -/
def longest (path : Bytes) : List (Bytes × Handler) → Option (Bytes × Handler)
  | [] => none
  | e :: l =>
    if e.1.getLast? = some 47 ∧ e.1 <+: path then
      match longest path l with
      | some e' => if e.1.length < e'.1.length then some e' else some e
      | none => some e
    else longest path l

/-- `ServeMux.match`. -/
def Mux.lookup (m : Mux) (path : Bytes) : Option (Bytes × Handler) :=
  match GoMap.get m path with
  | some h => some (path, h)
  | none => longest path m

/-- `ServeMux.handler`: a pattern with a host comes first. -/
def Mux.handler (m : Mux) (host path : Bytes) : Option (Bytes × Handler) :=
  let hosts := m.any fun e => e.1.head? != some 47
  match if hosts then m.lookup (host ++ path) else none with
  | some e => some e
  | none => m.lookup path

/-- `shouldRedirectRLocked`. -/
def Mux.shouldRedirect (m : Mux) (host path : Bytes) : Bool :=
  if (GoMap.get m path).isSome ∨ (GoMap.get m (host ++ path)).isSome then false
  else if path = [] then false
  else if (GoMap.get m (path ++ [47])).isSome ∨ (GoMap.get m (host ++ path ++ [47])).isSome then path.getLast? ≠ some 47
  else false

/-- What a request gets. A redirection keeps the query. -/
inductive Answer where
  | serve (h : Handler)
  | redirect (path : Bytes)
  | notFound
  deriving DecidableEq, Repr

/-- `ServeMux.Handler`, for a host without port and the path of the URL. -/
def Mux.request (m : Mux) (host path : Bytes) : Answer :=
  let p := cleanPath path
  if m.shouldRedirect host p then .redirect (p ++ [47])
  else if p ≠ path then .redirect p
  else match m.handler host path with
    | some e => .serve e.2
    | none => .notFound

/-! ## `Handle` -/

/-- `Handle`, zpages/zpages.go:53-61. -/
def handle (m : Mux) (pathPrefix : Bytes) : Res Mux :=
  (m.handle (pathJoin pathPrefix (str "rpcz")) .rpcz).bind fun m =>
    (m.handle (pathJoin pathPrefix (str "tracez")) .tracez).bind fun m =>
      m.handle (pathJoin pathPrefix (str "public/")) .files

/-! ## The file server -/

/-- The files of `_escData`, zpages/internal/resources.go:191-268. -/
def files : List Bytes :=
  [str "/public/opencensus.css", str "/templates/footer.html", str "/templates/header.html", str "/templates/rpcz.html",
   str "/templates/summary.html", str "/templates/traces.html"]

/-- The directories, zpages/internal/resources.go:270-283. -/
def dirs : List Bytes := [str "/", str "/public", str "/templates"]

/-- What the file server writes. -/
inductive Content where
  | file (name : Bytes)
  | listing
  | redirect
  | notFound
  deriving DecidableEq, Repr

/-- `http.FileServer(fs)` for the path of a URL, with `_escStaticFS.Open`, zpages/internal/resources.go:53-85. There is no
`index.html`. -/
def serveFile (path : Bytes) : Content :=
  let upath := if path.head? = some 47 then path else 47 :: path
  let name := clean upath
  if (str "/index.html").isSuffixOf upath then .redirect
  else if files.contains name then (if upath.getLast? = some 47 then .redirect else .file name)
  else if dirs.contains name then (if upath.getLast? = some 47 then .listing else .redirect)
  else .notFound

/-! ## Links -/

/-- Where a relative link leads from a page: the last component of the path of the page is replaced (RFC 3986, 5.2.3). -/
def follow (page link : Bytes) : Bytes := (page.reverse.dropWhile (· ≠ 47)).reverse ++ link

end Verif.Zpages.Mux
