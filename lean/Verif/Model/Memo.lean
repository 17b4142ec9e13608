import Verif.Model.Trie
/-!
# Caches that are built on tries: `-unique` (src/eval.c) and user and group lookups (src/pwcache.c)
-/
namespace Verif.Memo
open Verif Verif.Trie

/-- The bytes of an integer in memory, on a little-endian machine. -/
def bytesOf : Nat → Nat → List UInt8
  | 0, _ => []
  | k + 1, n => UInt8.ofNat (n % 256) :: bytesOf k (n / 256)

/-- `trie_insert_mem()`, and what is then done with `leaf->value`: `f` gets the old value, and returns a result and the new value. If there is no leaf for the key yet and no memory for one, nothing changes and the result is `fail`. -/
def withLeaf {V R : Type} (K : Nat) (v0 : V) (t : Trie V) (key : Key) (memory : Bool) (fail : R) (f : V → R × V) : Out (R × Trie V) :=
  (findMem t.root key).bind fun found =>
    if memory || found.isSome then
      (insertMem K t key v0).bind fun x =>
        match value x.2.leaves x.1 with
        | none => .ub
        | some v => .ok ((f v).1, ⟨x.2.root, setValue x.1 (f v).2 x.2.leaves⟩)
    else .ok (fail, t)

/-! ## -unique -/

/-- The device and inode of a file, from `struct bfs_stat`. -/
structure Stat where
  dev : Nat
  ino : Nat
  deriving DecidableEq, Repr

/-- `bfs_stat_id()`, src/stat.c:373-376; both numbers have 64 bits. -/
def statId (st : Stat) : Key := bytesOf 8 st.dev ++ bytesOf 8 st.ino

/-- What `eval_file_unique()` does to `state->action`. -/
inductive Action where
  | continue
  | prune
  deriving DecidableEq, Repr

/-- What is known about a visited file: the result of `eval_stat()`, and whether there is memory for a leaf. -/
structure Visit where
  stat : Option Stat
  memory : Bool

/-- `eval_file_unique()`, src/eval.c:1230-1252: whether the file is evaluated, and what happens to its contents. The value of a leaf is `true` if the pointer is set. -/
def fileUnique (K : Nat) (seen : Trie Bool) (v : Visit) : Out ((Bool × Action) × Trie Bool) :=
  match v.stat with
  | none => .ok ((false, .continue), seen)
  | some st =>
    withLeaf K false seen (statId st) v.memory (false, .continue) fun value =>
      if value then ((false, .prune), value) else ((true, .continue), true)

/-- A whole search: `eval_callback()`, src/eval.c:1457-1551, calls it once for each file before the file is evaluated. -/
def uniques (K : Nat) : Trie Bool → List Visit → Out (List (Bool × Action) × Trie Bool)
  | t, [] => .ok ([], t)
  | t, v :: vs => (fileUnique K t v).bind fun r => (uniques K r.2 vs).bind fun q => .ok (r.1 :: q.1, q.2)

/-! ## Users and groups -/

/-- `leaf->value` in the cache. -/
inductive Val (E : Type) where
  | null
  | missing
  | entry (e : E)

/-- What `getpwnam_r()` and the like answer. -/
inductive Reply (E : Type) where
  | found (e : E)
  | notFound
  | erange
  | error (errno : Nat)

/-- The world at the time of a lookup: what the library answers for each size of the buffer, and the sizes for which there is memory, starting with the first buffer. `leaf` is whether there is memory for a leaf. -/
structure World (E : Type) where
  reply : Nat → Reply E
  sizes : List Nat
  leaf : Bool

/-- `ENOMEM`. -/
def ENOMEM : Nat := 12

/-- What a lookup returns: the entry, or `NULL` and `errno`. -/
inductive Res (E : Type) where
  | entry (e : E)
  | null (errno : Nat)
  deriving DecidableEq

/-- The loop of `bfs_getent()`, src/pwcache.c:21-57, and the allocations before and in it: the result, and the new value of the leaf. -/
def getentLoop {E : Type} (reply : Nat → Reply E) : List Nat → Res E × Val E
  | [] => (.null ENOMEM, .null)
  | n :: sizes =>
    match reply n with
    | .found e => (.entry e, .entry e)
    | .notFound => (.null 0, .missing)
    | .erange => getentLoop reply sizes
    | .error e => (.null e, .null)

/-- `bfs_getent()`, src/pwcache.c:21-57, on the value of the leaf. -/
def getent {E : Type} (w : World E) (value : Val E) : Res E × Val E :=
  match value with
  | .entry e => (.entry e, value)
  | .missing => (.null 0, value)
  | .null => getentLoop w.reply w.sizes

/-- `struct bfs_users`, src/pwcache.c:67-74, and `struct bfs_groups`, src/pwcache.c:152-159, without the arena (see C44). -/
structure Cache (E : Type) where
  byName : Trie (Val E)
  byId : Trie (Val E)

/-- `bfs_users_new()`, src/pwcache.c:76-86, and `bfs_groups_new()`. -/
def newCache {E : Type} : Cache E := ⟨empty, empty⟩

/-- Lookups. Names have no NUL characters, and IDs have 32 bits. -/
inductive Lookup where
  | name (s : List UInt8)
  | id (n : Nat)
  deriving DecidableEq, Repr

/-- `bfs_getpwnam()`, src/pwcache.c:97-104, `bfs_getpwuid()`, src/pwcache.c:116-123, `bfs_getgrnam()`, src/pwcache.c:178-185, and `bfs_getgrgid()`, src/pwcache.c:197-204. -/
def lookupCache {E : Type} (K : Nat) (c : Cache E) (w : World E) : Lookup → Out (Res E × Cache E)
  | .name s => (withLeaf K .null c.byName (s ++ [0]) w.leaf (.null ENOMEM) (getent w)).bind fun r => .ok (r.1, { c with byName := r.2 })
  | .id n => (withLeaf K .null c.byId (bytesOf 4 n) w.leaf (.null ENOMEM) (getent w)).bind fun r => .ok (r.1, { c with byId := r.2 })

/-- `bfs_users_flush()`, src/pwcache.c:125-129, and `bfs_groups_flush()`. -/
def flush {E : Type} (_ : Cache E) : Cache E := ⟨empty, empty⟩

end Verif.Memo
