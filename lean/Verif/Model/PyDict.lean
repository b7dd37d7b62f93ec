/-!
Python's built-in `dict`/`OrderedDict` as an insertion-ordered association list.
Used by several modules; it models the language runtime, not a file in `/repo`.
-/

namespace SvgPy

/-- A dictionary: pairs in insertion order. -/
abbrev Dict (α β : Type) := List (α × β)

namespace Dict

variable {α β : Type} [DecidableEq α]

/-- `d.get(k)`. -/
def get? (d : Dict α β) (k : α) : Option β :=
  match d with
  | [] => none
  | (a, b) :: d => if a = k then some b else get? d k

/-- `k in d`. -/
def contains (d : Dict α β) (k : α) : Bool := (get? d k).isSome

/-- `d[k] = v`: an existing key keeps its place. -/
def set (d : Dict α β) (k : α) (v : β) : Dict α β :=
  match d with
  | [] => [(k, v)]
  | (a, b) :: d => if a = k then (a, v) :: d else (a, b) :: set d k v

/-- `del d[k]` for a present key (absent keys are tested by the callers). -/
def del (d : Dict α β) (k : α) : Dict α β :=
  match d with
  | [] => []
  | (a, b) :: d => if a = k then d else (a, b) :: del d k

/-- `d.keys()`. -/
def keys (d : Dict α β) : List α := d.map (·.1)

/-- `d.update(pairs)`. -/
def update (d : Dict α β) (ps : List (α × β)) : Dict α β := ps.foldl (fun d p => set d p.1 p.2) d

/-- `dict(pairs)`: the last pair with a key gives the value. -/
def ofPairs (ps : List (α × β)) : Dict α β := update [] ps

/-- `d.move_to_end(k)` if present, then `d[k] = v`, on an `OrderedDict`. -/
def setEnd (d : Dict α β) (k : α) (v : β) : Dict α β := del d k ++ [(k, v)]

end Dict
end SvgPy
