import Verif.GmshText.Model

/-! # The Gmsh text format, version 4.1 (ASCII): what a file describes and how it may be laid out -/
namespace Verif.GmshText
open Verif Verif.Elem Verif.Mesh Verif.Split Verif.Partition Verif.Merge Verif.Extrude Verif.Gmsh

/-- A number in the file. -/
inductive Val (K : Type) where
  | nat (v : Nat)
  | int (v : Int)
  | real (x : K)

section
variable {K : Type}

/-- The decimal digits. -/
def Digit (c : Char) : Prop := c ∈ "0123456789".toList

/-- White space: blank, tabulators, line feed, form feed, carriage return. -/
def Blank (c : Char) : Prop := c ∈ " \t\n\x0b\x0c\r".toList

/-- Decimal value of a string of digits, place by place. -/
def value : List Char → Nat
  | [] => 0
  | c :: l => "0123456789".toList.idxOf c * 10 ^ l.length + value l

/-- The characters `cs` write the number. -/
def Writes (dec : List Char → Option K) (cs : List Char) : Val K → Prop
  | .nat v => cs ≠ [] ∧ (∀ c ∈ cs, Digit c) ∧ value cs = v
  | .int v => ∃ ds, ds ≠ [] ∧ (∀ c ∈ ds, Digit c) ∧ ((cs = ds ∧ v = value ds) ∨ (cs = '-' :: ds ∧ v = -(value ds : Int)))
  | .real x => cs ≠ [] ∧ (∀ c ∈ cs, ¬ Blank c) ∧ dec cs = some x

/-- The text consists of these numbers, each preceded by any amount of white space. -/
inductive Spells (dec : List Char → Option K) : List Char → List (Val K) → Prop where
  | nil : Spells dec [] []
  | cons {ws cs rest : List Char} {v : Val K} {vs : List (Val K)} : ws ≠ [] → (∀ c ∈ ws, Blank c) → Writes dec cs v → Spells dec rest vs →
      Spells dec (ws ++ (cs ++ rest)) (v :: vs)

/-- An entity: tag, bounding box (or point), physical tag if any, bounding entities. -/
structure Ent (K : Type) where
  tag : Nat
  box : List K
  phys : Option Nat
  bounding : List Int

/-- A block of nodes. -/
structure NodeBlock (K : Type) where
  dim : Nat
  tag : Nat
  nodes : List (Nat × Pt K)

/-- A block of elements: each with its tag and the tags of its nodes. -/
structure ElBlock where
  dim : Nat
  tag : Nat
  type : Nat
  els : List (Nat × List Nat)

/-- The contents of a file. -/
structure MeshFile (K : Type) where
  version : K
  dataSize : Nat
  ents : Nat → List (Ent K)
  nodeHdr : Nat × Nat × Nat
  nodeBlocks : List (NodeBlock K)
  elHdr : Nat × Nat × Nat
  elBlocks : List ElBlock

/-- The numbers of an entity. -/
def Ent.vals (dim : Nat) (e : Ent K) : List (Val K) :=
  [.nat e.tag] ++ e.box.map .real ++ [.nat e.phys.toList.length] ++ e.phys.toList.map .nat ++
    (if dim = 0 then [] else [.nat e.bounding.length] ++ e.bounding.map .int)

def NodeBlock.vals (b : NodeBlock K) : List (Val K) :=
  [.nat b.dim, .nat b.tag, .nat 0, .nat b.nodes.length] ++ b.nodes.map (fun n => .nat n.1) ++ b.nodes.flatMap fun n => [.real n.2.x, .real n.2.y, .real n.2.z]

def ElBlock.vals (b : ElBlock) : List (Val K) :=
  [.nat b.dim, .nat b.tag, .nat b.type, .nat b.els.length] ++ b.els.flatMap fun e => .nat e.1 :: e.2.map .nat

variable (D : MeshFile K)

def MeshFile.formatVals : List (Val K) := [.real D.version, .nat 0, .nat D.dataSize]

def MeshFile.entVals : List (Val K) :=
  (List.range 4).map (fun d => .nat (D.ents d).length) ++ (List.range 4).flatMap fun d => (D.ents d).flatMap (Ent.vals d)

def MeshFile.nodeVals : List (Val K) :=
  [.nat D.nodeBlocks.length, .nat D.nodeHdr.1, .nat D.nodeHdr.2.1, .nat D.nodeHdr.2.2] ++ D.nodeBlocks.flatMap NodeBlock.vals

def MeshFile.elVals : List (Val K) :=
  [.nat D.elBlocks.length, .nat D.elHdr.1, .nat D.elHdr.2.1, .nat D.elHdr.2.2] ++ D.elBlocks.flatMap ElBlock.vals

/-- The physical tags by dimension and entity tag. -/
def MeshFile.physical : List ((Nat × Nat) × Nat) :=
  (List.range 4).flatMap fun d => (D.ents d).flatMap fun e => e.phys.toList.map fun p => ((d, e.tag), p)

/-- All nodes in the order of the file. -/
def MeshFile.nodes : List (Nat × Pt K) := D.nodeBlocks.flatMap (·.nodes)

/-- The element blocks without the element tags. -/
def MeshFile.blocks : List Block := D.elBlocks.map fun b => ⟨b.dim, b.tag, b.type, b.els.map (·.2)⟩

/-- Everything fits its type: a Gmsh tag is an `int`, a domain id has 16 bits; elements list as many nodes as their type has. -/
structure MeshFile.InRange [LinearOrder K] [Field K] : Prop where
  version : 4 ≤ D.version ∧ D.version < 5
  size : D.dataSize < 2 ^ 64
  numEnts : ∀ d < 4, (D.ents d).length < 2 ^ 64
  ents : ∀ d < 4, ∀ e ∈ D.ents d, e.tag < 2 ^ 31 ∧ e.box.length = (if d = 0 then 3 else 6) ∧ (∀ p, e.phys = some p → p < 2 ^ 16) ∧
    e.bounding.length < 2 ^ 64 ∧ ∀ b ∈ e.bounding, -2 ^ 31 ≤ b ∧ b < 2 ^ 31
  nodeHdr : D.nodeBlocks.length < 2 ^ 64 ∧ D.nodeHdr.1 < 2 ^ 64 ∧ D.nodeHdr.2.1 < 2 ^ 64 ∧ D.nodeHdr.2.2 < 2 ^ 64
  nodes : ∀ b ∈ D.nodeBlocks, b.dim < 2 ^ 31 ∧ b.tag < 2 ^ 31 ∧ b.nodes.length < 2 ^ 64 ∧ ∀ n ∈ b.nodes, n.1 < 2 ^ 64
  elHdr : D.elBlocks.length < 2 ^ 64 ∧ D.elHdr.1 < 2 ^ 64 ∧ D.elHdr.2.1 < 2 ^ 64 ∧ D.elHdr.2.2 < 2 ^ 64
  els : ∀ b ∈ D.elBlocks, b.dim < 4 ∧ b.tag < 2 ^ 31 ∧ b.type < 2 ^ 31 ∧ b.els.length < 2 ^ 64 ∧
    ∀ e ∈ b.els, e.1 < 2 ^ 64 ∧ (∀ n ∈ e.2, n < 2 ^ 64) ∧ ∀ ty, elType b.type = some ty → e.2.length = 2 ^ ty.dim
  /-- entity tags of one dimension are distinct -/
  tags : ∀ d < 4, ((D.ents d).map (·.tag)).Nodup

/-- `key` does not occur in `g ++ key` before its end. -/
def Before (g : List Char) (key : String) : Prop := ∀ g1 g2, g = g1 ++ g2 → g2 ≠ [] → ¬ key.toList <+: g2 ++ key.toList

/-- One section: the numbers between the two keywords. -/
def IsSection (dec : List Char → Option K) (first last : String) (vs : List (Val K)) (text : List Char) : Prop :=
  ∃ nums ws, text = first.toList ++ (nums ++ (ws ++ last.toList)) ∧ Spells dec nums vs ∧ ws ≠ [] ∧ ∀ c ∈ ws, Blank c

/-- The text of a file: the four sections in order, with anything between them which does not contain the next keyword (comments, physical names). -/
def MeshFile.IsText (dec : List Char → Option K) (file : List Char) : Prop :=
  ∃ g1 f g2 e g3 n g4 m g5, file = g1 ++ (f ++ (g2 ++ (e ++ (g3 ++ (n ++ (g4 ++ (m ++ g5))))))) ∧
    IsSection dec "$MeshFormat" "$EndMeshFormat" D.formatVals f ∧ IsSection dec "$Entities" "$EndEntities" D.entVals e ∧
    IsSection dec "$Nodes" "$EndNodes" D.nodeVals n ∧ IsSection dec "$Elements" "$EndElements" D.elVals m ∧
    Before g1 "$MeshFormat" ∧ Before g2 "$Entities" ∧ Before g3 "$Nodes" ∧ Before g4 "$Elements"

end

end Verif.GmshText
