import Verif.Model.Format
/-
How groups of options are built with the public interface, and the layout of their help.
-/
namespace PO

mutual
/-- How a group was built: caption, line length, minimum description length, and the options and
groups added, in order. -/
inductive Tree
  | mk (caption : Str) (lineLength minDescLen : Nat) (items : Items)
inductive Items
  | nil
  | opt (d : OptionDesc) (rest : Items)
  | group (t : Tree) (rest : Items)
end

mutual
/-- Building it with the public interface. -/
def Tree.build : Tree → Except Fail OptionsDesc
  | .mk caption ll md items =>
    match OptionsDesc.make caption ll md with
    | .error f => .error f
    | .ok o => items.addTo o

def Items.addTo : Items → OptionsDesc → Except Fail OptionsDesc
  | .nil, o => .ok o
  | .opt d rest, o => rest.addTo (o.addOption d)
  | .group t rest, o =>
    match t.build with
    | .error f => .error f
    | .ok g => rest.addTo (o.addGroup g)
end

mutual
/-- The options declared in a tree, in order of declaration. -/
def Tree.declared : Tree → List OptionDesc
  | .mk _ _ _ items => items.declared

def Items.declared : Items → List OptionDesc
  | .nil => []
  | .opt d rest => d :: rest.declared
  | .group t rest => t.declared ++ rest.declared
end

/-- A piece of the help text. -/
inductive Piece
  | caption (c : Str)
  | entry (d : OptionDesc) (lineLength : Nat)
  | blank

/-- The options added directly. -/
def Items.direct : Items → List OptionDesc
  | .nil => []
  | .opt d rest => d :: rest.direct
  | .group _ rest => rest.direct

mutual
/-- The layout: caption, then the options added directly, then the groups after a blank line each. -/
def Tree.layout : Tree → List Piece
  | .mk caption ll _ items =>
    (if caption = [] then [] else [.caption caption]) ++ items.direct.map (fun d => .entry d ll) ++ items.groupLayout

def Items.groupLayout : Items → List Piece
  | .nil => []
  | .opt _ rest => rest.groupLayout
  | .group t rest => .blank :: t.layout ++ rest.groupLayout
end

mutual
/-- Line length and minimum description length of all groups of a tree. -/
def Tree.sizes : Tree → List (Nat × Nat)
  | .mk _ ll md items => (ll, md) :: items.sizes

def Items.sizes : Items → List (Nat × Nat)
  | .nil => []
  | .opt _ rest => rest.sizes
  | .group t rest => t.sizes ++ rest.sizes
end

end PO
