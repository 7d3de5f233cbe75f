import Mathlib.Data.List.Basic
/-
The files of tables in an object store and the deletion of the files of a table.

Source: crates/modelardb_storage/src/data_folder/mod.rs and crates/modelardb_storage/src/write_ahead_log.rs.

Simplifications:
* A file is the list of the parts of its path. The crate object_store lists the files in a folder by comparing these parts.
* Names with empty parts, such as names that start with a slash, are not modelled: parts are taken as they are.
-/
namespace ModelarDB.Model.TableFiles

/-- The parts of a path. -/
abbrev Path := List (List Char)

/-- The folder of a table, data_folder/mod.rs:585 and write_ahead_log.rs:115: a slash in the name of a table makes a folder in a
folder. -/
def folder (root : List Char) (table : String) : Path := root :: table.toList.splitOn '/'

/-- `ObjectStore::list`: the files in a folder and in the folders in it. -/
def list (store : List Path) (dir : Path) : List Path := store.filter fun p => dir.isPrefixOf p

/-- `delete_table_files`, data_folder/mod.rs:623-643, and `remove_dir_all` in `remove_table_log`, write_ahead_log.rs:138-163. -/
def deleteTableFiles (root : List Char) (store : List Path) (table : String) : List Path :=
  store.filter fun p => !(list store (folder root table)).contains p

/-- A request. -/
inductive Op where
  | write (table : String) (file : Path)
  | drop (table : String)
deriving DecidableEq

/-- The files after a request. -/
def step (root : List Char) (store : List Path) : Op → List Path
  | .write t f => store ++ [folder root t ++ f]
  | .drop t => deleteTableFiles root store t

/-- The files after requests. -/
def run (root : List Char) (store : List Path) (ops : List Op) : List Path := ops.foldl (step root) store

end ModelarDB.Model.TableFiles
