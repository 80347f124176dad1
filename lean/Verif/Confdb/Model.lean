import Verif.Prelude
/-!
# The configuration database

Model of the configuration database: sections, identifiers and items with
values, stored in a flat ordered store of keys and values.

Source: src/knot/conf/confdb.c (db_code, find_data, db_set, db_unset, conf_db_set,
conf_db_unset, conf_db_get, conf_db_iter_*), src/knot/conf/confio.c (conf_io_set,
conf_io_unset and their helpers, as far as they use the database),
src/knot/conf/conf.c (conf_val, conf_val_next, conf_val_reset).

Simplifications. The store (LMDB) is a list of keys and values, each key once; its
order only concerns the order of identifiers. Keys are checked against the schema
before, so that functions of the database get a group and an item of it (the
identifier item is then no item). Failures of the store and of memory allocation
are not modelled.
-/
namespace Knot.Confdb

abbrev Bytes := List UInt8

/-! ## The store -/

/-- The store, src/libknot/db/db_lmdb.c. -/
abbrev Db := List (Bytes × Bytes)

/-- find(), src/libknot/db/db_lmdb.c -/
def find (d : Db) (k : Bytes) : Option Bytes := (d.find? (fun p => p.1 == k)).map (·.2)

/-- The store without a key. -/
def remove (d : Db) (k : Bytes) : Db := d.filter (fun p => p.1 != k)

/-- insert(), src/libknot/db/db_lmdb.c: replaces the value of the key -/
def insert (d : Db) (k v : Bytes) : Db := (k, v) :: remove d k

/-- Errors (libknot/errcode.h): KNOT_ENOENT, KNOT_YP_EINVAL_ITEM, KNOT_YP_EINVAL_ID,
KNOT_CONF_EREDEFINE, KNOT_ESPACE, KNOT_ERANGE, KNOT_YP_ENODATA, and a value of no
length where a code is expected. -/
inductive Err where
  | noent | item | id | redefine | space | range | nodata | corrupt
  deriving DecidableEq, Repr

/-- del(), src/libknot/db/db_lmdb.c -/
def del (d : Db) (k : Bytes) : Except Err Db := if (find d k).isSome then .ok (remove d k) else .error .noent

/-! ## The schema -/

/-- An item: its name, and whether it has more values (YP_FMULTI).
Source: src/libknot/yparser/ypschema.h:170-215 -/
structure Item where
  name : Bytes
  multi : Bool
  deriving DecidableEq, Repr

/-- A section: its name, whether it has identifiers (YP_FMULTI), and its items
but for the identifier. -/
structure Group where
  name : Bytes
  multi : Bool
  items : List Item
  deriving DecidableEq, Repr

abbrev Schema := List Group

/-! ## Codes -/

/-- db_code() with DB_GET, src/knot/conf/confdb.c:158-192 -/
def getCode (d : Db) (sec : UInt8) (name : Bytes) : Except Err UInt8 :=
  match find d (sec :: 0 :: name) with
  | none => .error .noent
  | some [] => .error .corrupt
  | some (c :: _) => .ok c

/-- The codes in use, src/knot/conf/confdb.c:194-228 -/
def usedCodes (d : Db) (sec : UInt8) : List UInt8 :=
  (d.filter (fun p => p.1.take 2 == [sec, 0])).map (fun p => p.2.headD 0)

/-- The smallest unused code, src/knot/conf/confdb.c:230-237 -/
def newCode (d : Db) (sec : UInt8) : Option UInt8 :=
  ((List.range 199).map (fun n => UInt8.ofNat (n + 2))).find? (fun c => !(usedCodes d sec).contains c)

/-- db_code() with DB_SET, src/knot/conf/confdb.c:158-257 -/
def setCode (d : Db) (sec : UInt8) (name : Bytes) : Except Err (Db × UInt8) :=
  match getCode d sec name with
  | .ok c => .ok (d, c)
  | .error .noent =>
    match newCode d sec with
    | none => .error .space
    | some c => .ok (insert d (sec :: 0 :: name) [c], c)
  | .error e => .error e

/-- db_code() with DB_DEL, src/knot/conf/confdb.c:158-192 -/
def delCode (d : Db) (sec : UInt8) (name : Bytes) : Except Err Db := del d (sec :: 0 :: name)

/-! ## Values -/

/-- The length of a value in the array, 2 bytes. Source: src/contrib/wire_ctx.h:190-200 -/
def len16 (n : Nat) : Bytes := [UInt8.ofNat (n / 256), UInt8.ofNat n]

/-- find_data(), src/knot/conf/confdb.c:259-284: the offset of the value in the array -/
def findData (v : Bytes) (off : Nat) : Bytes → Option Nat
  | a :: b :: rest =>
    if a.toNat * 256 + b.toNat = v.length ∧ rest.take (a.toNat * 256 + b.toNat) = v then some off
    else findData v (off + 2 + (a.toNat * 256 + b.toNat)) (rest.drop (a.toNat * 256 + b.toNat))
  | _ => none
termination_by l => l.length
decreasing_by simp; omega

/-- CONF_MAX_DATA_LEN, src/knot/conf/confdb.h:33 -/
def maxData : Nat := 65536

/-- db_set(), src/knot/conf/confdb.c:298-363 -/
def dbSet (d : Db) (k v : Bytes) (multi : Bool) : Except Err Db :=
  if multi = false then
    if v.length > maxData then .error .range else .ok (insert d k v)
  else if v.length > 65535 then .error .range
  else if ((find d k).bind (findData v 0)).isSome then .ok d
  else if ((find d k).getD []).length + 2 + v.length > maxData then .error .space
  else .ok (insert d k ((find d k).getD [] ++ len16 v.length ++ v))

/-- The array without the value at the offset, src/knot/conf/confdb.c:484-530 -/
def cutData (cur : Bytes) (off len : Nat) : Bytes := cur.take off ++ cur.drop (off + 2 + len)

/-- db_unset(), src/knot/conf/confdb.c:456-530; no value: all of them -/
def dbUnset (d : Db) (k v : Bytes) (multi : Bool) : Except Err Db :=
  if v = [] then del d k
  else
    match find d k with
    | none => .error .noent
    | some cur =>
      if multi = false then
        if cur = v then del d k else .error .noent
      else
        match findData v 0 cur with
        | none => .error .noent
        | some off =>
          if cur.length - 2 - v.length = 0 then del d k else .ok (insert d k (cutData cur off v.length))

/-! ## The database -/

/-- YP_MAX_ID_LEN, src/libknot/yparser/ypschema.h:39 -/
def maxId : Nat := 255

/-- conf_db_set() of an identifier, src/knot/conf/confdb.c:365-423 -/
def setId (d : Db) (g : Group) (id : Bytes) : Except Err Db :=
  match setCode d 0 g.name with
  | .error e => .error e
  | .ok (d, c) =>
    if id.length > maxId then .error .id
    else if (find d (c :: 1 :: id)).isSome then .error .redefine
    else dbSet d (c :: 1 :: id) [] false

/-- The identifier given is there (no identifier: no check), src/knot/conf/confdb.c:404-431, 577-597 -/
def idOk (d : Db) (c : UInt8) (id : Bytes) : Bool :=
  id == [] || (decide (id.length ≤ maxId) && (find d (c :: 1 :: id)).isSome)

/-- conf_db_set() of an item, src/knot/conf/confdb.c:365-453 -/
def setItem (d : Db) (g : Group) (i : Item) (id v : Bytes) : Except Err Db :=
  match setCode d 0 g.name with
  | .error e => .error e
  | .ok (d, c) =>
    if idOk d c id = false then .error .id
    else
      match setCode d c i.name with
      | .error e => .error e
      | .ok (d, e) => dbSet d (c :: e :: id) v i.multi

/-- conf_db_unset() of an identifier, src/knot/conf/confdb.c:532-594 -/
def unsetId (d : Db) (g : Group) (id : Bytes) : Except Err Db :=
  match getCode d 0 g.name with
  | .error e => .error e
  | .ok c => if id.length > maxId then .error .id else del d (c :: 1 :: id)

/-- conf_db_unset() of an item, src/knot/conf/confdb.c:532-622 (without delete_key1) -/
def unsetItem (d : Db) (g : Group) (i : Item) (id v : Bytes) : Except Err Db :=
  match getCode d 0 g.name with
  | .error e => .error e
  | .ok c =>
    if idOk d c id = false then .error .id
    else
      match getCode d c i.name with
      | .error e => .error e
      | .ok e => dbUnset d (c :: e :: id) v i.multi

/-- conf_db_unset() of the code of an item, src/knot/conf/confdb.c:532-612 (with delete_key1) -/
def unsetKey (d : Db) (g : Group) (i : Item) : Except Err Db :=
  match getCode d 0 g.name with
  | .error e => .error e
  | .ok c =>
    match getCode d c i.name with
    | .error e => .error e
    | .ok _ => delCode d c i.name

/-- conf_db_get(), src/knot/conf/confdb.c:625-716: the data of an item -/
def getItem (d : Db) (g : Group) (i : Item) (id : Bytes) : Except Err Bytes :=
  match getCode d 0 g.name with
  | .error e => .error (if id = [] then e else .id)
  | .ok c =>
    if idOk d c id = false then .error .id
    else
      match getCode d c i.name with
      | .error e => .error e
      | .ok e =>
        match find d (c :: e :: id) with
        | none => .error .noent
        | some v => .ok v

/-- conf_db_get() of an identifier: whether it is there -/
def hasId (d : Db) (g : Group) (id : Bytes) : Bool :=
  match getCode d 0 g.name with
  | .error _ => false
  | .ok c => id != [] && idOk d c id

/-- conf_db_iter_begin(), conf_db_iter_next(), conf_db_iter_id(), src/knot/conf/confdb.c:718-845:
the identifiers of a section -/
def ids (d : Db) (g : Group) : List Bytes :=
  match getCode d 0 g.name with
  | .error _ => []
  | .ok c => (d.filter (fun p => p.1.take 2 == [c, 1])).map (fun p => p.1.drop 2)

/-- The values of an array: conf_val_reset(), conf_val_next(), src/knot/conf/conf.c:488-532 -/
def values : Bytes → List Bytes
  | a :: b :: rest =>
    rest.take (a.toNat * 256 + b.toNat) :: values (rest.drop (a.toNat * 256 + b.toNat))
  | _ => []
termination_by l => l.length
decreasing_by simp; omega

/-- What the program reads: conf_db_get(), then conf_val() and conf_val_next(). -/
def read (d : Db) (g : Group) (i : Item) (id : Bytes) : List Bytes :=
  match getItem d g i id with
  | .error _ => []
  | .ok v => if i.multi then values v else [v]

/-! ## Commands -/

/-- One after the other; the first error ends it. -/
def each {α : Type} (f : Db → α → Except Err Db) (d : Db) : List α → Except Err Db
  | [] => .ok d
  | x :: l =>
    match f d x with
    | .error e => .error e
    | .ok d => each f d l

/-- What is not there is no error, src/knot/conf/confio.c:1159-1166, 1305-1313 -/
def orNot (d : Db) (r : Except Err Db) : Except Err Db :=
  match r with
  | .error .noent => .ok d
  | r => r

/-- unset_section_data() of a whole section, src/knot/conf/confio.c:1149-1170 -/
def unsetData (d : Db) (g : Group) (id : Bytes) : Except Err Db :=
  each (fun d i => orNot d (unsetItem d g i id [])) d g.items

/-- unset_section(), src/knot/conf/confio.c:1172-1203 -/
def unsetSection (d : Db) (g : Group) : Except Err Db :=
  match each (fun d i => orNot d (unsetKey d g i)) d g.items with
  | .error e => .error e
  | .ok d => orNot d (delCode d 0 g.name)

/-- conf_db_iter_del() of every identifier, src/knot/conf/confio.c:1320-1346 -/
def delIds (d : Db) (g : Group) : Except Err Db :=
  match getCode d 0 g.name with
  | .error _ => .ok d
  | .ok c => each (fun d id => del d (c :: 1 :: id)) d (ids d g)

/-- A command. -/
inductive Op where
  /-- `conf-set s[id]` -/
  | setId (s id : Bytes)
  /-- `conf-set s[id].i v`; no identifier: the section has none, or every one -/
  | set (s i id v : Bytes)
  /-- `conf-unset s[id].i [v]` -/
  | unset (s i id v : Bytes)
  /-- `conf-unset s[id]` -/
  | unsetId (s id : Bytes)
  /-- `conf-unset s` -/
  | unsetAll (s : Bytes)
  deriving DecidableEq, Repr

/-- yp_schema_find(), src/libknot/yparser/ypschema.c:259-290 -/
def group (S : Schema) (s : Bytes) : Option Group := S.find? (fun g => g.name == s)
/-- … of an item -/
def Group.item (g : Group) (i : Bytes) : Option Item := g.items.find? (fun x => x.name == i)

/-- conf_io_set() of an identifier, src/knot/conf/confio.c:1050-1065, 1127-1132 -/
def ioSetId (d : Db) (g : Group) (id : Bytes) : Except Err Db :=
  if g.multi = false ∨ id = [] then .error .id else setId d g id

/-- conf_io_set() of an item, src/knot/conf/confio.c:1038-1049, 1080-1132 -/
def ioSet (d : Db) (g : Group) (i : Item) (id v : Bytes) : Except Err Db :=
  if v = [] then .error .nodata
  else if g.multi = false ∧ id ≠ [] then .error .id
  else if g.multi = true ∧ id = [] then each (fun d id => setItem d g i id v) d (ids d g)
  else setItem d g i id v

/-- conf_io_unset() of an item, src/knot/conf/confio.c:1249-1255, 1276-1360 -/
def ioUnset (d : Db) (g : Group) (i : Item) (id v : Bytes) : Except Err Db :=
  if g.multi = false ∧ id ≠ [] then .error .id
  else if g.multi = true ∧ id = [] then each (fun d id => orNot d (unsetItem d g i id v)) d (ids d g)
  else unsetItem d g i id v

/-- conf_io_unset() of an identifier, src/knot/conf/confio.c:1256-1265, 1362-1376 -/
def ioUnsetId (d : Db) (g : Group) (id : Bytes) : Except Err Db :=
  if g.multi = false ∨ id = [] then .error .id
  else
    match unsetData d g id with
    | .error e => .error e
    | .ok d => unsetId d g id

/-- conf_io_unset() of a section, src/knot/conf/confio.c:1276-1383 -/
def ioUnsetAll (d : Db) (g : Group) : Except Err Db :=
  if g.multi = true then
    if ids d g = [] then .ok d
    else
      match each (fun d id => orNot d (unsetData d g id)) d (ids d g) with
      | .error e => .error e
      | .ok d =>
        match delIds d g with
        | .error e => .error e
        | .ok d => unsetSection d g
  else
    match unsetData d g [] with
    | .error e => .error e
    | .ok d => unsetSection d g

/-- A command with an item found in the schema. -/
def withItem (S : Schema) (s i : Bytes) (f : Group → Item → Except Err Db) : Except Err Db :=
  match group S s with
  | none => .error .item
  | some g =>
    match g.item i with
    | none => .error .item
    | some x => f g x

/-- … with a section. -/
def withGroup (S : Schema) (s : Bytes) (f : Group → Except Err Db) : Except Err Db :=
  match group S s with
  | none => .error .item
  | some g => f g

/-- One command. -/
def io (S : Schema) (d : Db) : Op → Except Err Db
  | .setId s id => withGroup S s (fun g => ioSetId d g id)
  | .set s i id v => withItem S s i (fun g x => ioSet d g x id v)
  | .unset s i id v => withItem S s i (fun g x => ioUnset d g x id v)
  | .unsetId s id => withGroup S s (fun g => ioUnsetId d g id)
  | .unsetAll s => withGroup S s (fun g => ioUnsetAll d g)

/-- A command in a transaction of its own: the database as it was if it fails.
Source: src/knot/ctl/commands.c:2291-2342 -/
def exec (S : Schema) (d : Db) (o : Op) : Db :=
  match io S d o with
  | .ok d => d
  | .error _ => d

/-- Commands. -/
def run (S : Schema) (d : Db) (l : List Op) : Db := l.foldl (exec S) d

/-- A new database: the version, src/knot/conf/confdb.c:107-136 (conf_db_init) -/
def empty : Db := [([0, 255], [2])]

end Knot.Confdb
