/-!
# The identifier table

Model of `ruruby-common/src/id_table.rs`.  The table is behind a global mutex, so operations are atomic and
a history is a sequence of calls.  `FxHashMap<String, IdentId>` is modelled by the finite map it represents
(a function to `Option`).
-/
namespace Verif.IdTable

/-- `id_table.rs:146-150` `IdentifierTable` -/
structure Table where
  rev_table : String → Option Nat
  table : List String

/-- `FxHashMap::insert` -/
def insertRev (m : String → Option Nat) (k : String) (v : Nat) : String → Option Nat :=
  fun x => if x = k then some v else m x

/-- `id_table.rs:193-196` `set_ident_id` -/
def Table.set_ident_id (t : Table) (name : String) (id : Nat) : Table :=
  { rev_table := insertRev t.rev_table name id, table := t.table.set id name }

/-- The reserved names and numbers, `id_table.rs:50-78` and `159-187`, in the order of registration. -/
def reserved : List (String × Nat) :=
  [("initialize", 1), ("Object", 2), ("new", 3), ("name", 4), ("+", 5), ("-", 6), ("*", 7), ("**", 8),
   ("<<", 9), ("%", 10), ("==", 11), ("!=", 12), (">", 13), (">=", 14), ("/", 15), ("<", 16), ("<=", 17),
   ("<=>", 18), ("===", 19), ("/enum", 20), ("[]", 21), ("[]=", 22), ("to_s", 23), (">>", 24),
   ("/alias_method", 25), ("method_missing", 26), ("each", 27), ("map", 28), ("/name", 29)]

/-- `id_table.rs:153-190` `IdentifierTable::new` -/
def Table.new : Table :=
  reserved.foldl (fun t p => t.set_ident_id p.1 p.2)
    { rev_table := fun _ => none, table := (List.replicate 40 "").set 0 "<null>" }

/-- `IdentId::from(u32)`, `id_table.rs:36-42`: panics on 0. -/
def identFrom (n : Nat) : Option Nat := if n = 0 then none else some n

/-- `id_table.rs:198-208` `get_ident_id` (and, word for word, `210-220` `get_ident_id_from_string`).
`table.len() as u32` keeps the low 32 bits.  `none` is the panic of `NonZeroU32::new(0).unwrap()`. -/
def Table.get_ident_id (t : Table) (name : String) : Option (Nat × Table) :=
  match t.rev_table name with
  | some id => some (id, t)
  | none =>
    match identFrom (t.table.length % 4294967296) with
    | none => none
    | some id => some (id, { rev_table := insertRev t.rev_table name id, table := t.table ++ [name] })

/-- `id_table.rs:222-224` `get_name`; `none` is the index panic. -/
def Table.get_name (t : Table) (id : Nat) : Option String := t.table[id]?

/-- A history of `IdentId::get_id` / `get_id_from_string` calls (`id_table.rs:85-93`): the identifiers
returned and the final table. -/
def run (t : Table) : List String → Option (List Nat × Table)
  | [] => some ([], t)
  | n :: ns =>
    match t.get_ident_id n with
    | none => none
    | some (id, t') =>
      match run t' ns with
      | none => none
      | some (ids, t'') => some (id :: ids, t'')

/-- `id_table.rs:131-141` `add_postfix`, `add_prefix`: intern the concatenation (the `Debug` form of an
identifier is its name). -/
def Table.add_postfix (t : Table) (id : Nat) (post : String) : Option (Nat × Table) :=
  match t.get_name id with
  | none => none
  | some s => t.get_ident_id (s ++ post)
def Table.add_prefix (t : Table) (id : Nat) (pre : String) : Option (Nat × Table) :=
  match t.get_name id with
  | none => none
  | some s => t.get_ident_id (pre ++ s)

end Verif.IdTable
