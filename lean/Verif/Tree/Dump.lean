import Verif.Tree.Props
import Verif.Tree.Json
/-
Model of `DumpJSONTreeStructure` (RStarTree.hxx 1212-1304): the bytes written to the file. Not modelled: a file that cannot be opened or written (the code does not check for it).
-/
namespace Verif.Tree
open Verif Verif.ND

variable {P : Type}

/-- Vector.hh 244-249: the components with ", " in between. -/
def vecBody : List Nat → List Nat
  | [] => []
  | [x] => toStr x
  | x :: y :: l => toStr x ++ bytesOf ", " ++ vecBody (y :: l)

/-- Vector.hh 242-252 `operator<<`. -/
def vecText (v : List Nat) : List Nat := bytesOf "[" ++ vecBody v ++ bytesOf "]"

/-- RStarTree.hxx 1262-1267, 1290-1295: begin of an object. -/
def beginText (first : Bool) : List Nat := if first then bytesOf "\n{\n" else bytesOf ",\n{\n"

/-- RStarTree.hxx 1260-1286 `dump_node_JSON`. -/
def nodeText (n : Node) (first : Bool) : List Nat :=
  beginText first ++ bytesOf "\"type\": \"Node\",\n" ++
  (bytesOf "\"start_coords\": " ++ vecText n.box.start ++ bytesOf ",\n") ++
  (bytesOf "\"end_coords\": " ++ vecText n.box.stop ++ bytesOf ",\n") ++
  (bytesOf "\"shape\": " ++ vecText n.box.shape ++ bytesOf ",\n") ++
  (bytesOf "\"level\": " ++ toStr n.level ++ bytesOf "\n") ++ bytesOf "}"

/-- RStarTree.hxx 1288-1304 `dump_entry_JSON`. -/
def entryText (e : Entry P) (first : Bool) : List Nat :=
  beginText first ++ bytesOf "\"type\": \"Entry\",\n" ++
  (bytesOf "\"start_coords\": " ++ vecText e.box.start ++ bytesOf ",\n") ++
  (bytesOf "\"end_coords\": " ++ vecText e.box.stop ++ bytesOf ",\n") ++
  (bytesOf "\"shape\": " ++ vecText e.box.shape ++ bytesOf "\n") ++ bytesOf "}"

/-- RStarTree.hxx 1242-1246: the entries of a leaf node. -/
def dumpEntries (t : Tree P) : List Nat → Res (List Nat)
  | [] => .ok []
  | c :: cs => (getEntry t c).bind fun e => (dumpEntries t cs).bind fun s => .ok (entryText e false ++ s)

/-- RStarTree.hxx 1254-1257: `f` writes what is at and below a child. -/
def dumpKids (f : Nat → Res (List Nat)) : List Nat → Res (List Nat)
  | [] => .ok []
  | c :: cs => (f c).bind fun s => (dumpKids f cs).bind fun s' => .ok (s ++ s')

/-- RStarTree.hxx 1232-1259 `dump_JSON`; `fuel` bounds the depth. -/
def dumpRec (t : Tree P) : Nat → Bool → Nat → Res (List Nat)
  | 0, _, _ => .diverge
  | fuel + 1, first, i => (getNode t i).bind fun n =>
    (if n.level = 0 then dumpEntries t n.ch else dumpKids (dumpRec t fuel false) n.ch).bind fun s => .ok (nodeText n first ++ s)

/-- RStarTree.hxx 1212-1230 `DumpJSONTreeStructure`. -/
def dumpJson (t : Tree P) : Res (List Nat) :=
  (match t.root with
   | none => (Res.ok [] : Res (List Nat))
   | some r => dumpRec t (height t) true r).bind fun s => .ok (bytesOf "[" ++ s ++ bytesOf "\n]\n")

end Verif.Tree
