import Verif.Model.Base

/-!
Model of `parse_scpi`, `hardware_tools/equipment/utility.py:77-179`.

Strings are lists of characters; `str.upper` is the ASCII one (`Char.toUpper`).  A python dict is an association list
or, for nested dictionaries, a function from key paths to nodes: dictionaries compare equal irrespective of insertion
order, so nothing observable is lost.
-/

namespace Verif.Scpi

open Verif

abbrev Str := List Char

/-- `s.upper()`, ASCII. -/
def upper (s : Str) : Str := s.map Char.toUpper

/-- `s.split(c)` for a single character. -/
def splitOn (c : Char) : Str → List Str
  | [] => [[]]
  | x :: s =>
    if x = c then [] :: splitOn c s
    else match splitOn c s with
      | [] => [[x]]
      | p :: ps => (x :: p) :: ps

/-- `s.split(" ", maxsplit=1)` unpacked into two names: `none` is the ValueError of the unpacking (utility.py:154). -/
def splitSpace : Str → Option (Str × Str)
  | [] => none
  | x :: s =>
    if x = ' ' then some ([], s)
    else (splitSpace s).map fun p => (x :: p.1, p.2)

/-- `s.strip(";")`, utility.py:96. -/
def stripSemi (s : Str) : Str := ((s.dropWhile (· = ';')).reverse.dropWhile (· = ';')).reverse

/-- The loop of utility.py:97-108 that glues together pieces split inside quotes.  The list is kept reversed, so its
head is `data_list[-1]`. -/
def regroup : List Str → List Str → Bool → List Str
  | [], acc, _ => acc.reverse
  | d :: ds, acc, quoted =>
    let acc := if quoted then
        (match acc with
         | l :: t => (l ++ ';' :: d) :: t
         | [] => [d])
      else d :: acc
    let quoted := if d.count '"' % 2 = 1 then !quoted else quoted
    regroup ds acc quoted

/-- utility.py:94-108: from the stream to the list of commands.  `data[-1]` of an empty string is an IndexError. -/
def tokenise (data : Str) : Except PyErr (List Str) :=
  match data.getLast? with
  | none => .error .indexError
  | some l =>
    let data := if l = ':' then data.dropLast else data
    .ok (regroup (splitOn ';' (stripSemi data)) [] false)

/-! ### Key matching -/

/-- The `types` argument: a callable or a dictionary of further types (utility.py:85-88). -/
inductive Ty (V : Type) where
  | conv (f : Str → Except PyErr V)
  | dict (es : List (Str × Ty V))

/-- `[a-z]` -/
def isLower (c : Char) : Bool := 'a' ≤ c && c ≤ 'z'

/-- `\w`, ASCII -/
def isWord (c : Char) : Bool := isLower c || ('A' ≤ c && c ≤ 'Z') || ('0' ≤ c && c ≤ '9') || c = '_'

/-- `\d`, ASCII -/
def isDig (c : Char) : Bool := '0' ≤ c && c ≤ '9'

/-- `int(digits)` -/
def digitsVal (s : Str) : ℕ := s.foldl (fun a c => 10 * a + (c.toNat - '0'.toNat)) 0

/-- `re.match(r"(\w+)<(\d+)\-(\d+)>", kk)`, utility.py:135: name, lower and upper limit. -/
def rangeMatch (kk : Str) : Option (Str × ℕ × ℕ) :=
  let name := kk.takeWhile isWord
  match kk.dropWhile isWord with
  | '<' :: r1 =>
    let a := r1.takeWhile isDig
    match r1.dropWhile isDig with
    | '-' :: r2 =>
      let b := r2.takeWhile isDig
      match r2.dropWhile isDig with
      | '>' :: _ => if name = [] ∨ a = [] ∨ b = [] then none else some (name, digitsVal a, digitsVal b)
      | _ => none
    | _ => none
  | _ => none

/-- The alternatives of a type key, utility.py:133-140: split at `|`, ranges written out. -/
def alternatives (kd : Str) : List Str :=
  (splitOn '|' kd).flatMap fun kk =>
    match rangeMatch kk with
    | some (name, lo, hi) => (List.range' lo (hi + 1 - lo)).map fun i : ℕ => name ++ (toString i).toList
    | none => [kk]

/-- `re.match(f"^{kk_short}$", k)` with `kk_short` = the key with every run of lower-case letters made optional,
utility.py:142-143.  Other characters are taken literally (keys with regular expression operators are not
modelled, nor is a trailing newline which `$` tolerates). -/
def abbrevMatch : Str → Str → Bool
  | [], k => k.isEmpty
  | c :: p, k =>
    if isLower c then
      let run := c :: p.takeWhile isLower
      let rest := p.dropWhile isLower
      ((upper run).isPrefixOf k && abbrevMatch rest (k.drop run.length)) || abbrevMatch rest k
    else
      match k with
      | x :: k' => decide (x = c) && abbrevMatch p k'
      | [] => false
termination_by p => p.length
decreasing_by
  all_goals simp only [List.length_cons]
  all_goals first
    | exact Nat.lt_succ_of_le (List.dropWhile_suffix isLower).length_le
    | omega

/-- The search of `key_match` through a dictionary, utility.py:131-146. -/
def findKey {V : Type} (k : Str) : List (Str × Ty V) → Str × Option (Ty V)
  | [] => (k, none)
  | (kd, vd) :: es =>
    match (alternatives kd).find? (fun kk => abbrevMatch kk k) with
    | some kk => (upper kk, some vd)
    | none => findKey k es

/-- `key_match`, utility.py:110-146.  When the types say that the parent is a value (a callable), `d.items()` is an
AttributeError. -/
def keyMatch {V : Type} (k : Str) (d : Option (Ty V)) : Except PyErr (Str × Option (Ty V)) :=
  match d with
  | none => .ok (k, none)
  | some (.conv _) => .error .attributeError
  | some (.dict es) => .ok (findKey (upper k) es)

/-! ### Execution -/

/-- A stored value: the text, or what the callable of `types` made of it. -/
inductive Val (V : Type) where
  | raw (s : Str)
  | conv (v : V)
  deriving DecidableEq

/-- A node of a nested dictionary. -/
inductive Node (V : Type) where
  | dir
  | file (v : Val V)
  deriving DecidableEq

/-- Nested dictionaries as a function from key paths. -/
abbrev DTree (V : Type) := List Str → Option (Node V)

/-- `{}` -/
def emptyTree {V : Type} : DTree V := fun q => if q = [] then some .dir else none

/-- Assignment to the dictionary entry at a path: replaces whatever was there, including a nested dictionary
(utility.py:168,177). -/
def assign {V : Type} (t : DTree V) (p : List Str) (n : Node V) : DTree V :=
  fun q => if q = p then some n else if p <+: q then none else t q

/-- utility.py:167-169: `if k not in parent_d or not isinstance(parent_d[k], dict): parent_d[k] = {}`. -/
def ensureDir {V : Type} (t : DTree V) (p : List Str) : DTree V :=
  match t p with
  | some .dir => t
  | _ => assign t p .dir

/-- Assignment to an entry of the flat dictionary. -/
def setFlat {V : Type} (d : List (Str × Val V)) (k : Str) (v : Val V) : List (Str × Val V) :=
  match d with
  | [] => [(k, v)]
  | (k', v') :: t => if k' = k then (k, v) :: t else (k', v') :: setFlat t k v

/-- The variables of the loop of utility.py:148-177.  `flat` and `tree` are `values` for the two modes; `parent_d` is
a reference into `values`: it is only ever moved to a child or back to the root, and only children of it are written,
so the reference always denotes the entry at `path`.  `order` lists the keys of the outermost dictionary of the nested
mode in the order of their insertion (needed for `popitem`). -/
structure St (V : Type) where
  flat : List (Str × Val V)
  tree : DTree V
  order : List Str
  parent : Str
  path : List Str
  types : Option (Ty V)

/-- The `while len(k) > 1` loop, utility.py:163-170; the result is the state and the remaining key.  An empty list
of keys is the IndexError of `k[0]` at utility.py:171. -/
def descend {V : Type} (flat : Bool) : List Str → St V → Except PyErr (St V × Str)
  | [], _ => .error .indexError
  | [k], s => .ok (s, k)
  | k :: k2 :: ks, s => do
    let (k', ty) ← keyMatch k s.types
    let s' : St V :=
      { s with
        types := ty
        parent := s.parent ++ k' ++ [':']
        path := s.path ++ [k']
        tree := if flat then s.tree else ensureDir s.tree (s.path ++ [k']) }
    descend flat (k2 :: ks) s'

/-- utility.py:158-162: a leading colon (an empty first key) goes back to the root. -/
def leadingColon {V : Type} (types : Option (Ty V)) (keys : List Str) (s : St V) : List Str × St V :=
  match keys with
  | [] :: rest => (rest, { s with parent := [':'], path := [], types := types })
  | ks => (ks, s)

/-- The insertion order of a dictionary after an assignment to `k`: keys that exist keep their place. -/
def touch (order : List Str) (k : Str) : List Str := if k ∈ order then order else order ++ [k]

/-- One command, utility.py:153-177. -/
def command {V : Type} (flat : Bool) (types : Option (Ty V)) (s : St V) (d : Str) :
    Except PyErr (St V) :=
  match splitSpace d with
  | none => .error .valueError
  | some (k, v) => do
    let (keys, s) := leadingColon types (splitOn ':' (upper k)) s
    let (s, k) ← descend flat keys s
    let (k, ty) ← keyMatch k s.types
    let v ← match ty with
      | some (.conv f) => do
        let x ← f v
        pure (Val.conv x)
      | _ => pure (Val.raw v)
    if flat then
      return { s with flat := setFlat s.flat (s.parent ++ k) v }
    else
      return { s with
        tree := assign s.tree (s.path ++ [k]) (.file v)
        order := touch s.order ((s.path ++ [k]).headD []) }

/-- The state before the loop, utility.py:148-151. -/
def start {V : Type} (types : Option (Ty V)) : St V :=
  { flat := [], tree := emptyTree, order := [], parent := [':'], path := [], types := types }

/-- `parse_scpi`, utility.py:77-179; in the final state `flat` (resp. `tree`) is the returned dictionary. -/
def parse {V : Type} (data : Str) (flat : Bool) (types : Option (Ty V)) : Except PyErr (St V) := do
  let ds ← tokenise data
  ds.foldlM (command flat types) (start types)

end Verif.Scpi
