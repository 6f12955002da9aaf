import Verif.Model.Basic
/-!
wasm/aqlparse/server/main.go: which file the demo server opens for a request. Not modelled: the redirect
of the default mux for paths that are not clean (the client then asks for the clean path), `ServeContent`,
and whether the files exist.
-/

namespace Aql

/-- The components between slashes; empty ones for doubled slashes. -/
def splitSlash : Str → List Str
  | [] => [[]]
  | c :: s =>
    if c = '/' then [] :: splitSlash s
    else match splitSlash s with
      | [] => [[c]]
      | x :: xs => (c :: x) :: xs

/-- path.Clean of a rooted path: empty components and `.` are dropped, `..` removes the last component, if
any. -/
def cleanRooted (done : List Str) : List Str → List Str
  | [] => done
  | x :: xs =>
    if x = [] ∨ x = ['.'] then cleanRooted done xs
    else if x = ['.', '.'] then cleanRooted done.dropLast xs
    else cleanRooted (done ++ [x]) xs

/-- path.Clean("/" + p), as components. -/
def cleanPath (p : Str) : List Str := cleanRooted [] (splitSlash p)

/-- filepath.Abs(filepath.Join(dir, name)) for a plain file name; `cwd` is the working directory. -/
def fullPath (cwd : List Str) (dir name : Str) : List Str :=
  (match dir with
   | '/' :: _ => cleanRooted [] (splitSlash dir)
   | _ => cleanRooted cwd (splitSlash dir)) ++ [name]

/-- main.go:16-26, `AddFile`: the key is filepath.Base of the full path; a later file replaces an earlier
one with the same key. -/
def addFile (files : List (Str × List Str)) (full : List Str) : List (Str × List Str) :=
  (full.getLast?.getD ['/'], full) :: files

/-- main.go:28-31, `Open`: a name that is not in the map gives the empty path, which cannot be opened. -/
def openFile (files : List (Str × List Str)) (name : Str) : Option (List Str) :=
  (files.find? fun f => f.1 = name).map Prod.snd

/-- main.go:40-43. -/
def demoNames : List Str := ["wasm_exec.js".toList, "hwt.css".toList, "style.css".toList, "aqlparse.wasm".toList]

/-- main.go:39-43, the files of the server. -/
def demoFiles (cwd : List Str) (dir : Str) : List (Str × List Str) :=
  demoNames.foldl (fun fs n => addFile fs (fullPath cwd dir n)) []

/-- strings.HasSuffix(r.URL.Path, "/index.html"), net/http fs.go. -/
def asksIndex (p : Str) : Bool := "/index.html".toList.reverse.isPrefixOf p.reverse

/-- io/fs names of net/http: `/` is `.`, otherwise the path without its first slash. -/
def fsName : List Str → Str
  | [] => ['.']
  | [x] => x
  | x :: xs => x ++ '/' :: fsName xs

/-- main.go:47-57: the file opened for a request with this path, if any. -/
def served (cwd : List Str) (dir p : Str) : Option (List Str) :=
  if p = ['/'] then some (fullPath cwd dir "index.html".toList)
  else if asksIndex p then none
  else openFile (demoFiles cwd dir) (fsName (cleanPath p))

end Aql
