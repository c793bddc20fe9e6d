import Verif.Model.Load

/-
The testbed's cache of area files (`dp/testbed/areas.py`, table `area_cache` of `dp/testbed/db.py:87-96`).
-/
namespace Dp

/-- what `yaml.load` with the safe loader may give, `dp/testbed/areas.py:53`; `other` stands for the kinds that JSON does not have (dates, times,
sets, bytes) -/
inductive PyVal where
  | null
  | bool (b : Bool)
  | int (n : Int)
  | float (text : String)
  | str (s : String)
  | other (text : String)
  | list (l : List PyVal)
  | map (d : List (PyVal × PyVal))

/-- the key that `json.dumps` writes for a key of a dictionary, `dp/testbed/areas.py:66` -/
def PyVal.jsonKey : PyVal → Except Err String
  | .null => .ok "null"
  | .bool b => .ok (if b then "true" else "false")
  | .int n => .ok (toString n)
  | .float t => .ok t
  | .str s => .ok s
  | .other _ => .error .typeError
  | .list _ => .error .typeError
  | .map _ => .error .typeError

/-- `d[k] = v` while `json.loads` reads an object, `dp/testbed/areas.py:49` -/
def jsonSet (k : String) (v : PyVal) : List (PyVal × PyVal) → List (PyVal × PyVal)
  | [] => [(.str k, v)]
  | (k', v') :: d => match k' with
    | .str s => if s = k then (.str s, v) :: d else (.str s, v') :: jsonSet k v d
    | k' => (k', v') :: jsonSet k v d

mutual
/-- `json.loads(json.dumps(v))`, `dp/testbed/areas.py:49,66`.  Simplification: numbers and texts are read back as they were. -/
def PyVal.viaJson : PyVal → Except Err PyVal
  | .null => .ok .null
  | .bool b => .ok (.bool b)
  | .int n => .ok (.int n)
  | .float t => .ok (.float t)
  | .str s => .ok (.str s)
  | .other _ => .error .typeError
  | .list l => do .ok (.list (← viaJsonList l))
  | .map d => do .ok (.map ((← viaJsonDict d).foldl (fun d kv => jsonSet kv.1 kv.2 d) []))
/-- the items of a list, likewise -/
def viaJsonList : List PyVal → Except Err (List PyVal)
  | [] => .ok []
  | v :: l => do .ok ((← v.viaJson) :: (← viaJsonList l))
/-- the entries of a dictionary, likewise -/
def viaJsonDict : List (PyVal × PyVal) → Except Err (List (String × PyVal))
  | [] => .ok []
  | (k, v) :: d => do
    let k ← k.jsonKey
    let v ← v.viaJson
    .ok ((k, v) :: (← viaJsonDict d))
end

/-- a row of `area_cache`, `dp/testbed/db.py:88-95`; for the text in `as_json` we keep what it is read as -/
structure CacheRow where
  path : String
  key : String
  catalog : String
  code : String
  content : String
  asJson : PyVal

/-- a file of an area: where it really is below the root (an exception if elsewhere), `dp/testbed/areas.py:34-35,61`, and its text -/
structure AreaFile where
  path : Except Err String
  content : String

/-- the files of the areas, by catalog and code -/
abbrev AreaRoot := String → String → Option AreaFile

/-- the row written by `INSERT … ON CONFLICT (path) DO UPDATE`, `dp/testbed/areas.py:56-67` -/
def cacheUpsert (row : CacheRow) : List CacheRow → List CacheRow
  | [] => [row]
  | r :: rows => if r.path = row.path then { r with content := row.content, asJson := row.asJson } :: rows else r :: cacheUpsert row rows

/-- `load_area`, `dp/testbed/areas.py:33-72`: the key and the area, if there is a file, and the cache afterwards.  Simplification: of several
rows that fit, the first is taken. -/
def loadCached (parse : String → Except Err PyVal) (root : AreaRoot) (cache : List CacheRow) (catalog code : String) :
    Except Err (Option (String × PyVal) × List CacheRow) :=
  match root catalog code with
  | none => .ok (none, cache)
  | some file => match cache.find? (fun r => r.catalog == catalog && r.code == code && r.content == file.content) with
    | some r => .ok (some (r.key, r.asJson), cache)
    | none => do
      let spec ← parse file.content
      let key := catalog ++ "/" ++ code
      let path ← file.path
      let json ← spec.viaJson
      .ok (some (key, spec), cacheUpsert { path, key, catalog, code, content := file.content, asJson := json } cache)

/-- `load_areas`, `dp/testbed/areas.py:13-30`: all in one transaction.  Simplification: the areas are a list; they have different keys, as no
catalog has a slash. -/
def loadAreas (parse : String → Except Err PyVal) (root : AreaRoot) :
    List CacheRow → List (String × String) → Except Err (List (String × PyVal) × List CacheRow)
  | cache, [] => .ok ([], cache)
  | cache, (catalog, code) :: records => do
    let (area, cache) ← loadCached parse root cache catalog code
    let (areas, cache) ← loadAreas parse root cache records
    .ok (area.toList ++ areas, cache)

/-- the cache after a run: an exception undoes the transaction, `dp/testbed/sqlite.py:30-41` -/
def cacheAfter (parse : String → Except Err PyVal) (root : AreaRoot) (cache : List CacheRow) (records : List (String × String)) :
    List CacheRow :=
  match loadAreas parse root cache records with
  | .ok (_, cache') => cache'
  | .error _ => cache

end Dp
