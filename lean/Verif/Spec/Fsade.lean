import Verif.Model.Fsade
/-!
# What a file's metadata are
-/
namespace Verif.Fsade

/-- What there is to know about a file: its ACLs, capabilities, extended attributes, and context, each of which may be unreadable. -/
structure Meta where
  acl : AclType → Except Nat Acl
  caps : Except Nat (Except Nat Bytes)
  /-- The total length of the names of the attributes. -/
  xattrs : Except Nat Nat
  xattr : Bytes → Except Nat Nat
  context : Except Nat Bytes

/-- How paths name files: the metadata of the file that a path names (following a link at the end or not), and of the file that a name in an open directory names. -/
structure Names where
  byPath : Bool → Bytes → Meta
  byFd : Bool → Nat → Bytes → Meta

/-- The system behaves: its calls report the file that the path names; `/proc` either works for all open files or for none; and if so, it leads to them. -/
structure Honest (n : Names) (sys : Sys) : Prop where
  acl : ∀ p t, sys.aclGetFile p t = (n.byPath true p).acl t
  caps : ∀ p, sys.capGetFile p = (n.byPath true p).caps
  xattrs : ∀ f p, sys.listxattr f p = (n.byPath f p).xattrs
  xattr : ∀ f p name, sys.getxattr f p name = (n.byPath f p).xattr name
  context : ∀ f p, sys.getfilecon f p = (n.byPath f p).context
  proc : ∀ fd fd', sys.procAccess fd = true → sys.procAccess fd' = true
  procPath : ∀ f fd p, sys.procAccess fd = true → n.byPath f (procPath fd ++ p) = n.byFd f fd p

/-- A file is found by its path as well as by its name in an open directory. -/
def Found (n : Names) (b : Buf) : Prop := ∀ f fd, b.atFd = some fd → n.byPath f b.path = n.byFd f fd b.atPath

/-- The file that was visited: a link, or what it points to. -/
def visited (n : Names) (b : Buf) : Meta := n.byPath (!b.isLnk) b.path

/-- The three entries that every file has don't count. -/
def extra : Except Nat Tag → Bool
  | .ok .userObj => false
  | .ok .groupObj => false
  | .ok .other => false
  | .ok _ => true
  | .error _ => false

/-- A file has a non-trivial ACL: more than the permissions, or a directory has a default ACL. Links have none. -/
def nontrivialAcl (m : Meta) (b : Buf) : Bool :=
  !b.isLnk && ((match m.acl .access with | .ok acl => acl.any extra | .error _ => false) ||
    (b.isDir && match m.acl .default with | .ok acl => !acl.isEmpty | .error _ => false))

/-- An error that means that there are none. -/
def none? (e : Nat) : Bool := e = 95 || e = 61 || e = 22

/-- The access ACL is unreadable: an error, or that of the last bad entry. -/
def aclError (m : Meta) : Option Nat :=
  match m.acl .access with
  | .error e => if none? e then none else some e
  | .ok acl => acl.reverse.findSome? fun | .error e => some e | .ok _ => none

/-- A file has capabilities (that are not empty). Links have none. -/
def capabilities (m : Meta) (b : Buf) : Except Nat Bool :=
  if b.isLnk then .ok false
  else
    match m.caps with
    | .error e => if none? e then .ok false else .error e
    | .ok (.error e) => .error e
    | .ok (.ok text) => .ok (!text.isEmpty)

/-- A file has attributes; if they are too long, it has some. -/
def hasXattrs (m : Meta) : Except Nat Bool :=
  match m.xattrs with
  | .ok n => .ok (n ≠ 0)
  | .error e => if none? e then .ok false else if e = 7 then .ok true else .error e

/-- A file has this attribute. -/
def hasXattr (m : Meta) (name : Bytes) : Except Nat Bool :=
  match m.xattr name with
  | .ok _ => .ok true
  | .error e => if none? e then .ok false else if e = 7 then .ok true else .error e

/-- What `-acl` says: it is true for files with non-trivial ACLs. Otherwise it is false if all ACLs can be read, and an error if they can't (this is said of files other than directories only). -/
structure AclAnswer (m : Meta) (b : Buf) (r : Except Nat Bool) : Prop where
  yes : r = .ok true ↔ nontrivialAcl m b = true
  link : b.isLnk = true → r = .ok false
  no : nontrivialAcl m b = false → aclError m = none → (∀ e, m.acl .default = .error e → none? e = true) → r = .ok false
  file : nontrivialAcl m b = false → b.isLnk = false → b.isDir = false → ∀ e, aclError m = some e → r = .error e

/-- The right answers. -/
def Right (n : Names) (b : Buf) : Query → Answer → Prop
  | .acl, .bool r => AclAnswer (visited n b) b r
  | .capable, .bool r => r = capabilities (visited n b) b
  | .xattr, .bool r => r = hasXattrs (visited n b)
  | .xattrname name, .bool r => r = hasXattr (visited n b) name
  | .context, .text r => r = (visited n b).context
  | _, _ => False

end Verif.Fsade
