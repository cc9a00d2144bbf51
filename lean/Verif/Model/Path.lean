/-
`path.Clean` and `path.Join` of the Go standard library, and the workspace path
computation of /repo/yaml/compiler/workspace.go.
-/
import Verif.Model.Image

namespace Drone
namespace Path

abbrev Str := List Char

/-- One segment of the path is processed: `out` is what has been written so far,
last segment first (the loop of Go's `path.Clean`). -/
def push (rooted : Bool) (out : List Str) (seg : Str) : List Str :=
  if seg = [] ∨ seg = ['.'] then out
  else if seg = ['.', '.'] then
    match out with
    | [] => if rooted then [] else [seg]
    | top :: rest => if top = ['.', '.'] then seg :: out else rest
  else seg :: out

/-- Segments joined by slashes. -/
def joinSegs : List Str → Str
  | [] => []
  | [s] => s
  | s :: ss => s ++ '/' :: joinSegs ss

/-- Go `path.Clean`, by segments instead of by bytes. -/
def clean (s : Str) : Str :=
  if s = [] then ['.']
  else
    let rooted := s.head? = some '/'
    let out := ((Img.segs '/' s).foldl (push rooted) []).reverse
    if rooted then '/' :: joinSegs out
    else if out = [] then ['.'] else joinSegs out

/-- Go `path.Join` of two elements. -/
def join (a b : Str) : Str :=
  if a = [] then (if b = [] then [] else clean b)
  else clean (a ++ '/' :: b)

end Path

/-- `workspacePath` (/repo/yaml/compiler/workspace.go:27) -/
def workspacePath : String := "/drone/src"

/-- /repo/yaml/compiler/workspace.go:67-69 -/
def toWindowsPath (s : String) : String :=
  String.ofList (s.toList.map fun c => if c = '/' then '\\' else c)

/-- /repo/yaml/compiler/workspace.go:61-63 -/
def toWindowsDrive (s : String) : String := "c:" ++ toWindowsPath s

/-- The results of `createWorkspace`. -/
structure WorkspaceDirs where
  base : String
  path : String
  full : String
  deriving DecidableEq, Repr

/-- /repo/yaml/compiler/workspace.go:75-89 -/
def createWorkspace (p : Pipeline) : WorkspaceDirs :=
  let base := if p.workspace.base = "" then workspacePath else p.workspace.base
  let path := p.workspace.path
  let full := String.ofList (Path.join base.toList path.toList)
  if p.platform.os = "windows" then
    ⟨toWindowsDrive base, toWindowsPath path, toWindowsDrive full⟩
  else ⟨base, path, full⟩

end Drone
