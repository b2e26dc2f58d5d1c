import Mathlib.Data.List.Infix
/-!
# Hash files, compressed copies and zip archives of a directory

Models `larch/util/zipdir.py`: `make_hash_file` (89-105), `verify_hash_file` (108-139),
`gzip_dir` (148-192), `gzip_archive` (194-213), `Archiver` (217-258), `_zipdir` (22-34),
`zipdir` (37-61).

A file system is a partial map from full paths to contents.  SHA-256 with its hexadecimal text and
the gzip format are parameters: `H` gives the digest text of some bytes, `gz` compresses and
`ungz` expands (failing on bytes which are not in the format).  Directories, access rights other
than the refused reads of `verify_hash_file`, full disks and time stamps are not modelled.
-/

namespace Larch.Archive

/-- File names and paths, as the characters of the string. -/
abbrev Name := List Char

/-- The contents of a file, one number per byte. -/
abbrev Bytes := List Nat

/-- A file system: which paths hold a file, and what is in it. -/
abbrev FS := Name → Option Bytes

/-- What the functions raise: `FileNotFoundError`, gzip's `BadGzipFile`, the `ValueError` of
`verify_hash_file`, and the `TypeError` of calling `None`. -/
inductive Err where
  | missing | notGzip | badHash | notCallable
  deriving DecidableEq, Repr

/-- `open(p, "w")` followed by writing. -/
def put (fs : FS) (p : Name) (b : Bytes) : FS := fun q => if q = p then some b else fs q

/-- `os.remove(p)`. -/
def del (fs : FS) (p : Name) : FS := fun q => if q = p then none else fs q

/-- `fname[-3:] == '.gz'` (zipdir.py:91, 183). -/
def isGz (f : Name) : Bool := decide (f.drop (f.length - 3) = ['.', 'g', 'z'])

/-- `fname[:-3]` (zipdir.py:97). -/
def cutGz (f : Name) : Name := f.take (f.length - 3)

/-- The ending `".sha256.txt"` of the hash files. -/
def hashEnd : Name := ['.', 's', 'h', 'a', '2', '5', '6', '.', 't', 'x', 't']

/-- The ending `".gz"`. -/
def gzEnd : Name := ['.', 'g', 'z']

/-- `os.path.join(dir, f)`, for a directory given without a closing separator. -/
def join (dir f : Name) : Name := dir ++ '/' :: f

/-- The bytes which `make_hash_file` feeds to the hash (zipdir.py:91-96, 99-103): those of the
file, or for a name in `.gz` those which the file expands to. -/
def toHash (ungz : Bytes → Option Bytes) (fs : FS) (f : Name) : Except Err Bytes :=
  match fs f with
  | none => .error .missing
  | some b =>
    if isGz f then (match ungz b with | none => .error .notGzip | some c => .ok c) else .ok b

/-- Where `make_hash_file` writes (zipdir.py:97, 104). -/
def hashPath (f : Name) : Name := if isGz f then cutGz f ++ hashEnd else f ++ hashEnd

/-- `make_hash_file` (zipdir.py:89-105). -/
def makeHash (H : Bytes → Bytes) (ungz : Bytes → Option Bytes) (fs : FS) (f : Name) :
    Except Err FS :=
  match toHash ungz fs f with
  | .error e => .error e
  | .ok b => .ok (put fs (hashPath f) (H b))

/-- The reading loop of `verify_hash_file` (zipdir.py:111-124).  `sched i` tells what happens at
attempt `i`: the file is read to the end (`none`), or a `PermissionError` comes after `k` blocks
of 4096 bytes (`some k`; `some 0` is a refusal to open).  `left` attempts are left and `acc` is
what the hash object, made once before the loop, has taken so far. -/
def feed (file : Option Bytes) (sched : Nat → Option Nat) : Nat → Nat → Bytes → Except Err Bytes
  | 0, _, acc => .ok acc
  | left + 1, i, acc =>
    match sched i with
    | none => (match file with | none => .error .missing | some b => .ok (acc ++ b))
    | some k => feed file sched left (i + 1) (acc ++ (file.getD []).take (4096 * k))

/-- The path of the hash file which `verify_hash_file` reads (zipdir.py:127-132): beside the file,
or under the base name of the file in `hash_dir`. -/
def verifyPath (f base : Name) : Option Name → Name
  | none => f ++ hashEnd
  | some d => join d (base ++ hashEnd)

/-- `verify_hash_file` (zipdir.py:108-139); `base` is `os.path.basename(fname)`. -/
def verify (H : Bytes → Bytes) (fs : FS) (f base : Name) (hashDir : Option Name) (maxRetries : Nat)
    (sched : Nat → Option Nat) : Except Err Unit :=
  match feed (fs f) sched maxRetries 0 [] with
  | .error e => .error e
  | .ok b =>
    match fs (verifyPath f base hashDir) with
    | none => .error .missing
    | some t => if H b = t then .ok () else .error .badHash

/-- The set of targets of `gzip_dir` (zipdir.py:171-177): the names in the directory which match
one of the patterns, unless the text `exclude` occurs in the path.  `glob` is represented by what
it says about single names. -/
def targets (src : Name) (listing : List Name) (patterns : List (Name → Bool)) (exclude : Name) :
    List Name :=
  listing.filter fun f => patterns.any (fun p => p f) && !decide (exclude <:+: join src f)

/-- One turn of the loop over the targets (zipdir.py:179-192). -/
def gzipOne (H : Bytes → Bytes) (gz : Bytes → Bytes) (ungz : Bytes → Option Bytes)
    (src dst : Name) (hashes remove : Bool) (fs : FS) (f : Name) : Except Err FS :=
  match (if hashes then makeHash H ungz fs (join src f) else .ok fs) with
  | .error e => .error e
  | .ok fs1 =>
    if isGz (join src f) then .ok fs1 else
    match fs1 (join src f) with
    | none => .error .missing
    | some b =>
      let fs2 := put fs1 (join dst f ++ gzEnd) (gz b)
      .ok (if remove then del fs2 (join src f) else fs2)

/-- The loop of `gzip_dir` (zipdir.py:179-192), over the targets in the order in which the Python
set happens to give them. -/
def gzipDir (H : Bytes → Bytes) (gz : Bytes → Bytes) (ungz : Bytes → Option Bytes)
    (src dst : Name) (hashes remove : Bool) : FS → List Name → Except Err FS
  | fs, [] => .ok fs
  | fs, f :: fl =>
    match gzipOne H gz ungz src dst hashes remove fs f with
    | .error e => .error e
    | .ok fs' => gzipDir H gz ungz src dst hashes remove fs' fl

/-- `Archiver.gzip_by_glob` (zipdir.py:240-249): one `gzip_archive` into every archive directory,
without hash files and without removal (the defaults of `gzip_archive`, zipdir.py:194).  Each run
takes the targets in its own order. -/
def gzipByGlob (H : Bytes → Bytes) (gz : Bytes → Bytes) (ungz : Bytes → Option Bytes) (src : Name) :
    FS → List (Name × List Name) → Except Err FS
  | fs, [] => .ok fs
  | fs, (arch, order) :: rest =>
    match gzipDir H gz ungz src arch false false fs order with
    | .error e => .error e
    | .ok fs' => gzipByGlob H gz ungz src fs' rest

/-- A file below a directory: the folders leading to it, its name and its contents. -/
structure Entry where
  folders : List Name
  name : Name
  content : Bytes
  deriving DecidableEq

/-- `_any_dot(s)` for one path component (zipdir.py:15-19). -/
def dotted : Name → Bool
  | [] => false
  | c :: _ => c == '.'

/-- `os.path.basename(root)` for the folder of a file (zipdir.py:26), `top` being the base name of
the source directory as the caller wrote it (`""` after a closing separator). -/
def folderOf (top : Name) (e : Entry) : Name := e.folders.getLastD top

/-- Whether `_zipdir` writes the file (zipdir.py:25-32). -/
def takes (skipDots : Bool) (top : Name) (e : Entry) : Bool :=
  (!skipDots || !dotted (folderOf top e)) && (!skipDots || !dotted e.name)

/-- The name of the file in the archive (zipdir.py:31): relative to the source directory, or with
the extra layer to its parent, whose entry for the source directory is `layer`. -/
def member (extra : Option Name) (e : Entry) : List Name :=
  (match extra with | none => [] | some layer => [layer]) ++ e.folders ++ [e.name]

/-- `_zipdir` (zipdir.py:22-34) on all the files below the source directory, in the order of
`os.walk`, when the log is callable. -/
def zipMembers (skipDots : Bool) (extra : Option Name) (top : Name) (files : List Entry) :
    List (List Name × Bytes) :=
  (files.filter (takes skipDots top)).map fun e => (member extra e, e.content)

/-- The choice of the log function in `Archiver.__init__` (zipdir.py:227-233): `none` stands for
no `log` argument, `some false` for `log=False`, `some true` for a function; the answer tells
whether `self.log` can be called. -/
def archiverLog : Option Bool → Bool
  | none => true
  | some b => b

/-- `Archiver.zip_dir` (zipdir.py:251-258): the members of the zip file made in every archive
directory.  `_zipdir` calls its log for the source directory itself before anything else. -/
def archiverZip (log : Option Bool) (archives : List Name) (skipDots : Bool) (extra : Option Name)
    (top : Name) (files : List Entry) : Except Err (List (Name × List (List Name × Bytes))) :=
  if archives.isEmpty || archiverLog log then
    .ok (archives.map fun a => (a, zipMembers skipDots extra top files))
  else .error .notCallable

end Larch.Archive
