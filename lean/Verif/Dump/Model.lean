import Verif.Dump.Dur

/-!
# Dumping the objects of a cluster as statements, and running the statements

Model of `dump_impl` (`meta/src/store/dump.rs`) and `ToDDLSql` (`common/models/src/sql/mod.rs`): the text that `cnosdb-cli dump-ddl`
prints; and of what happens when the text is given to a new cluster with `restore-dump-ddl`: reading of lines
(`client/src/exec.rs`:21-89), parsing (`query_server/query/src/sql/parser.rs`), planning (`query_server/query/src/sql/planner.rs`) and
the commands of the meta service (`meta/src/store/storage.rs`).

Simplifications: white space and letters are ASCII; ids of users, roles and columns are left out (members are kept by user name);
the limiter of a tenant is a text; sizes are printed and read by functions of the environment (crate byte-unit); external tables and
stream tables are left out; statements that no dump prints are refused.
-/

namespace Verif.Dump

open Verif.Raft (dec)

/-! ## Objects -/

/-- `TenantOptions` (schema/tenant.rs): comment, time to keep a dropped tenant, limiter. -/
structure TenantOpts where
  comment : Option Text
  dropAfter : Option Dur
  limiter : Option Text
deriving DecidableEq

/-- `UserOptions` (auth/user.rs). -/
structure UserOpts where
  hash : Option Text
  comment : Option Text
  mustChange : Option Bool
  rsa : Option Text
  admin : Option Bool
deriving DecidableEq

/-- `Precision`. -/
inductive Prec where
  | ms | us | ns
deriving DecidableEq

/-- `Display for Precision`. -/
def Prec.text : Prec → Text
  | .ms => "MS".toList
  | .us => "US".toList
  | .ns => "NS".toList

/-- `Precision::new`. -/
def Prec.parse (t : Text) : Option Prec :=
  if upper t = "MS".toList then some .ms
  else if upper t = "US".toList then some .us
  else if upper t = "NS".toList then some .ns
  else none

/-- `DatabaseConfig` and `DatabaseOptions` (schema/database_schema.rs). -/
structure Db where
  prec : Prec
  maxMem : Nat
  parts : Nat
  walMax : Nat
  walSync : Bool
  strict : Bool
  readers : Nat
  ttl : Dur
  shard : Nat
  replica : Nat
  vnodeDur : Dur
deriving DecidableEq

/-- `SystemTenantRole` (auth/role.rs:74-118). -/
inductive Sys where
  | owner | member
deriving DecidableEq

/-- `Display for SystemTenantRole` (role.rs:110-118). -/
def Sys.text : Sys → Text
  | .owner => "owner".toList
  | .member => "member".toList

/-- `SystemTenantRole::try_from` (role.rs:98-108). -/
def Sys.parse (t : Text) : Option Sys :=
  if t = "owner".toList then some .owner else if t = "member".toList then some .member else none

/-- `DatabasePrivilege` (auth/privilege.rs). -/
inductive Priv where
  | read | write | full
deriving DecidableEq

/-- `DatabasePrivilege::as_str` (privilege.rs:172-178). -/
def Priv.text : Priv → Text
  | .read => "Read".toList
  | .write => "Write".toList
  | .full => "All".toList

/-- `ValueType` (value_type.rs). -/
inductive VT where
  | float | int | uint | bool | str | geometry (sub : Text) | unknown
deriving DecidableEq

/-- `Encoding` (codec.rs:37-54). -/
inductive Enc where
  | default | null | delta | deltaTs | quantile | gzip | bzip | gorilla | snappy | zstd | zlib | bitPack | unknown
deriving DecidableEq

/-- `ColumnType`. -/
inductive Kind where
  | time (p : Prec)
  | tag
  | field (t : VT)
deriving DecidableEq

/-- `TableColumn`, without its id. -/
structure Col where
  name : Text
  kind : Kind
  enc : Enc
deriving DecidableEq

/-! ## Printing -/

/-- What the environment provides: `CnosByteNumber::format_bytes` and `CnosByteNumber::new` (byte_nums.rs), the settings of databases
created without options, the number of data nodes. -/
structure Env where
  fmtBytes : Nat → Text
  parseBytes : Text → Option Nat
  dflt : Db
  nodes : Nat

/-- A keyword. -/
def w (s : String) : Piece := .word s.toList

/-- `if not exists ` (sql/mod.rs:40-42, 90-92, 140-142, 288-290). -/
def ine : Bool → List Piece
  | true => [w "if", .gap, w "not", .gap, w "exists", .gap]
  | false => []

/-- `sql_option_to_sql_str` (sql/mod.rs:23-29): `k=v` with a comma and a space between. -/
def optList : List (Piece × Piece) → List Piece
  | [] => []
  | [o] => [o.1, .sym '=', o.2]
  | o :: r => [o.1, .sym '=', o.2, .sym ',', .gap] ++ optList r

/-- `with ` and the options, if there are any (sql/mod.rs:76-79, 126-129). -/
def withOpts : List (Piece × Piece) → List Piece
  | [] => []
  | os => [w "with", .gap] ++ optList os

/-- The options of a tenant (sql/mod.rs:45-74). -/
def TenantOpts.list (o : TenantOpts) : List (Piece × Piece) :=
  (o.comment.map fun c => (w "comment", Piece.str c)).toList ++ (o.dropAfter.map fun d => (w "drop_after", Piece.str d.text)).toList ++
    (o.limiter.map fun l => (w "_limiter", Piece.str l)).toList

/-- `Tenant::to_ddl_sql` (sql/mod.rs:36-83): spaces at the end are cut. -/
def tenantSql (e : Bool) (n : Text) (o : TenantOpts) : List Piece :=
  [w "create", .gap, w "tenant", .gap] ++ ine e ++
    (match o.list with
     | [] => [.ident n]
     | os => [.ident n, .gap] ++ withOpts os) ++ [.sym ';']

/-- `SqlParserValue::Boolean`. -/
def boolPiece : Bool → Piece
  | true => w "true"
  | false => w "false"

/-- The options of a user (sql/mod.rs:95-124). -/
def UserOpts.list (o : UserOpts) : List (Piece × Piece) :=
  (o.hash.map fun c => (w "hash_password", Piece.str c)).toList ++ (o.comment.map fun c => (w "comment", Piece.str c)).toList ++
    (o.mustChange.map fun b => (w "must_change_password", boolPiece b)).toList ++
    (o.rsa.map fun c => (w "rsa_public_key", Piece.str c)).toList ++ (o.admin.map fun b => (w "granted_admin", boolPiece b)).toList

/-- `UserDesc::to_ddl_sql` (sql/mod.rs:86-133). -/
def userSql (e : Bool) (n : Text) (o : UserOpts) : List Piece :=
  [w "create", .gap, w "user", .gap] ++ ine e ++ [.ident n, .gap] ++ withOpts o.list ++ [.sym ';']

/-- `true` or `false`. -/
def boolText : Bool → Text
  | true => "true".toList
  | false => "false".toList

/-- `DatabaseSchema::to_ddl_sql` (sql/mod.rs:136-186). -/
def dbSql (env : Env) (e : Bool) (n : Text) (d : Db) : List Piece :=
  [w "create", .gap, w "database", .gap] ++ ine e ++
    [.ident n, .gap, w "with", .gap,
     w "precision", .gap, .str d.prec.text, .gap,
     w "max_memcache_size", .gap, .raw (env.fmtBytes d.maxMem), .gap,
     w "memcache_partitions", .gap, .num d.parts, .gap,
     w "wal_max_file_size", .gap, .raw (env.fmtBytes d.walMax), .gap,
     w "wal_sync", .gap, .raw (boolText d.walSync), .gap,
     w "strict_write", .gap, .raw (boolText d.strict), .gap,
     w "max_cache_readers", .gap, .num d.readers, .gap,
     w "ttl", .gap, .raw d.ttl.text, .gap,
     w "shard", .gap, .num d.shard, .gap,
     w "replica", .gap, .num d.replica, .gap,
     w "vnode_duration", .gap, .raw d.vnodeDur.text, .sym ';']

/-- `CustomTenantRole::to_ddl_sql` (sql/mod.rs:189-208) without `if not exists`. -/
def roleSql (n : Text) (inh : Option Sys) : List Piece :=
  [w "create", .gap, w "role", .gap, .ident n] ++ (match inh with
    | some s => [.gap, w "inherit", .gap, .word s.text]
    | none => []) ++ [.sym ';']

/-- A line of `privilege_to_sql` (sql/mod.rs:219-232). -/
def grantSql (r : Text) (p : Text × Priv) : List Piece :=
  [w "grant", .gap, .word p.2.text, .gap, w "on", .gap, w "database", .gap, .ident p.1, .gap, w "to", .gap, .ident r, .sym ';']

/-- `add_member_to_sql` (sql/mod.rs:235-240). -/
def memberSql (t u r : Text) : List Piece :=
  [w "alter", .gap, w "tenant", .gap, .ident t, .gap, w "add", .gap, w "user", .gap, .ident u, .gap, w "as", .gap, .ident r, .sym ';']

/-- `to_sql_type_str` (value_type.rs:42-52). -/
def VT.pieces : VT → List Piece
  | .float => [w "DOUBLE"]
  | .int => [w "BIGINT"]
  | .uint => [w "BIGINT", .gap, w "UNSIGNED"]
  | .bool => [w "BOOLEAN"]
  | .str => [w "STRING"]
  | .geometry _ => [w "GEOMETRY"]
  | .unknown => [w "UNKNOWN"]

/-- `Encoding::as_str` (codec.rs:81-97). -/
def Enc.text : Enc → Text
  | .default => "DEFAULT".toList
  | .null => "NULL".toList
  | .delta => "DELTA".toList
  | .deltaTs => "DELTATS".toList
  | .quantile => "QUANTILE".toList
  | .gzip => "GZIP".toList
  | .bzip => "BZIP".toList
  | .gorilla => "GORILLA".toList
  | .snappy => "SNAPPY".toList
  | .zstd => "ZSTD".toList
  | .zlib => "ZLIB".toList
  | .bitPack => "BITPACK".toList
  | .unknown => "UNKNOWN".toList

/-- The codec of a field, unless it is the default (sql/mod.rs:301-303). -/
def codecSql (e : Enc) : List Piece :=
  if e = .default then [] else [.gap, w "CODEC", .sym '(', .word e.text, .sym ')']

/-- A field (sql/mod.rs:293-305). -/
def fieldSql (c : Col) : List Piece :=
  match c.kind with
  | .field t => [.ident c.name, .gap] ++ t.pieces ++ codecSql c.enc ++ [.sym ',', .gap]
  | _ => []

/-- Names with a comma and a space between (sql/mod.rs:307-313). -/
def nameList : List Text → List Piece
  | [] => []
  | [n] => [.ident n]
  | n :: r => [.ident n, .sym ',', .gap] ++ nameList r

def Col.isField (c : Col) : Bool := match c.kind with | .field _ => true | _ => false
def Col.isTag (c : Col) : Bool := match c.kind with | .tag => true | _ => false

/-- `TskvTableSchema::to_ddl_sql` (sql/mod.rs:284-318). -/
def tableSql (e : Bool) (d n : Text) (cols : List Col) : List Piece :=
  [w "create", .gap, w "table", .gap] ++ ine e ++ [.ident d, .sym '.', .ident n, .gap, .sym '('] ++
    (cols.filter Col.isField).flatMap fieldSql ++ [w "tags", .gap, .sym '('] ++ nameList ((cols.filter Col.isTag).map Col.name) ++
    [.sym ')', .sym ')', .sym ';']

/-! ## Parsing -/

/-- `parse_keyword` (sqlparser) and `parse_cnos_keyword` (parser.rs:2078-2085): a word, in any case. -/
def word? (k : String) : List Tok → Option (List Tok)
  | .word x :: r => if upper x = k.toList then some r else none
  | _ => none

/-- `consume_token` for symbols. -/
def sym? (c : Char) : List Tok → Option (List Tok)
  | .sym x :: r => if x = c then some r else none
  | _ => none

/-- Lower case of ASCII letters. -/
def lower (t : Text) : Text := t.map Char.toLower

/-- `parse_identifier` (sqlparser) followed by `normalize_ident`: words in lower case, names in quotes as they are. -/
def ident : List Tok → Option (Text × List Tok)
  | .word x :: r => some (lower x, r)
  | .quoted n :: r => some (n, r)
  | .str s :: r => some (s, r)
  | _ => none

/-- `check_name_not_contain_illegal_character` (parser.rs:2180-2203). -/
def nameOk (n : Text) : Bool := !('/' ∈ n) && !(n.all Char.isWhitespace)

/-- `parse_keywords(&[IF, NOT, EXISTS])`. -/
def ine? (ts : List Tok) : Bool × List Tok :=
  match (word? "IF" ts).bind fun a => (word? "NOT" a).bind (word? "EXISTS") with
  | some r => (true, r)
  | none => (false, ts)

/-- `Value` (sqlparser). -/
inductive Val where
  | str (s : Text)
  | bool (b : Bool)
  | num (d : Text)
deriving DecidableEq

/-- `parse_value` (sqlparser). -/
def value : List Tok → Option (Val × List Tok)
  | .str s :: r => some (.str s, r)
  | .num d :: r => some (.num d, r)
  | .word x :: r => if upper x = "TRUE".toList then some (.bool true, r) else if upper x = "FALSE".toList then some (.bool false, r) else none
  | _ => none

/-- `parse_literal_string` (sqlparser) and `parse_string_value` (parser.rs:1186-1189), strings only. -/
def string : List Tok → Option (Text × List Tok)
  | .str s :: r => some (s, r)
  | _ => none

/-- `parse_number::<u64>` (parser.rs:1123-1134). -/
def number : List Tok → Option (Nat × List Tok)
  | .num d :: r => (parseU64 d).map fun n => (n, r)
  | _ => none

/-- An `=` that may be missing (parser.rs:1077 and others). -/
def eq? (ts : List Tok) : List Tok := (sym? '=' ts).getD ts

/-- `parse_sql_option` (parser.rs:2172-2177). -/
def sqlOption (ts : List Tok) : Option ((Text × Val) × List Tok) :=
  match ident ts with
  | none => none
  | some (n, r) => match value (eq? r) with
    | none => none
    | some (v, r) => some ((n, v), r)

/-- `parse_comma_separated` (parser.rs:2060-2072); the first argument bounds the number of items. -/
def commas {α : Type} (f : List Tok → Option (α × List Tok)) : Nat → List Tok → Option (List α × List Tok)
  | 0, _ => none
  | k + 1, ts => match f ts with
    | none => none
    | some (a, r) => match sym? ',' r with
      | none => some ([a], r)
      | some r' => (commas f k r').map fun x => (a :: x.1, x.2)

/-- An option in `parse_tenant_with_options` (parser.rs:1344-1376): comment or time to keep; `_limiter` is no option. -/
def tenantOption (ts : List Tok) : Option ((Bool × Text) × List Tok) :=
  match ident ts with
  | none => none
  | some (n, r) =>
    if lower n = "comment".toList then (string (eq? r)).map fun x => ((true, x.1), x.2)
    else if lower n = "drop_after".toList then (string (eq? r)).map fun x => ((false, x.1), x.2)
    else none

/-- `DatabaseOptions` and `DatabaseConfig` of the syntax tree. -/
structure DbRaw where
  prec : Option Text := none
  maxMem : Option Text := none
  parts : Option Nat := none
  walMax : Option Text := none
  walSync : Option Text := none
  strict : Option Text := none
  readers : Option Nat := none
  ttl : Option Text := none
  shard : Option Nat := none
  replica : Option Nat := none
  vnodeDur : Option Text := none
deriving DecidableEq

/-- The word of an option of a database. -/
def dbWord : List Tok → Text × List Tok
  | .word x :: r => (upper x, eq? r)
  | _ => ([], [])

/-- `parse_database_option_or_config` (parser.rs:1071-1121): `none` for an error, `some none` for no option. -/
def dbOption (ts : List Tok) (o : DbRaw) : Option (Option (DbRaw × List Tok)) :=
  let (k, r) := dbWord ts
  let str (f : Text → DbRaw) : Option (Option (DbRaw × List Tok)) := (string r).map fun x => some (f x.1, x.2)
  let num (f : Nat → DbRaw) : Option (Option (DbRaw × List Tok)) := (number r).map fun x => some (f x.1, x.2)
  let pos (f : Nat → DbRaw) : Option (Option (DbRaw × List Tok)) :=
    (number r).bind fun x => if x.1 = 0 then none else some (some (f x.1, x.2))
  if k = "TTL".toList then str fun s => { o with ttl := some s }
  else if k = "SHARD".toList then pos fun n => { o with shard := some n }
  else if k = "VNODE_DURATION".toList then str fun s => { o with vnodeDur := some s }
  else if k = "REPLICA".toList then pos fun n => { o with replica := some n }
  else if k = "PRECISION".toList then str fun s => { o with prec := some s }
  else if k = "MAX_MEMCACHE_SIZE".toList then str fun s => { o with maxMem := some s }
  else if k = "MEMCACHE_PARTITIONS".toList then num fun n => { o with parts := some n }
  else if k = "WAL_MAX_FILE_SIZE".toList then str fun s => { o with walMax := some s }
  else if k = "WAL_SYNC".toList then str fun s => { o with walSync := some s }
  else if k = "STRICT_WRITE".toList then str fun s => { o with strict := some s }
  else if k = "MAX_CACHE_READERS".toList then num fun n => { o with readers := some n }
  else some none

/-- `parse_database_options_and_config` (parser.rs:1058-1069); the first argument bounds the number of options. -/
def dbOptions : Nat → List Tok → DbRaw → Option (DbRaw × List Tok)
  | 0, _, _ => none
  | k + 1, ts, o => match dbOption ts o with
    | none => none
    | some none => some (o, ts)
    | some (some (o', r)) => dbOptions k r o'

/-- `parse_data_type` (sqlparser) with `make_data_type` (planner.rs:1661-1686) and `make_geometry_data_type` (:3033-3075), types of
fields only: a geometry needs its kind and the number zero. -/
def dataType : List Tok → Option (VT × List Tok)
  | .word x :: r =>
    if upper x = "BIGINT".toList then (match word? "UNSIGNED" r with
      | some r' => some (.uint, r')
      | none => some (.int, r))
    else if upper x = "DOUBLE".toList then (match word? "PRECISION" r with
      | some _ => none
      | none => some (.float, r))
    else if upper x = "STRING".toList then some (.str, r)
    else if upper x = "BOOLEAN".toList then some (.bool, r)
    else if upper x = "GEOMETRY".toList then (match r with
      | .sym '(' :: .word s :: .sym ',' :: .num ['0'] :: .sym ')' :: r' => some (.geometry (upper s), r')
      | _ => none)
    else none
  | _ => none

/-- `Encoding::from_str` (codec.rs:100-119): there is no `UNKNOWN`. -/
def Enc.parse (t : Text) : Option Enc :=
  [Enc.default, .null, .delta, .deltaTs, .quantile, .gzip, .bzip, .gorilla, .snappy, .zstd, .zlib, .bitPack].find? fun e => e.text = upper t

/-- `parse_codec_type` (parser.rs:2159-2170), if there is a `CODEC`. -/
def codec (ts : List Tok) : Option (Enc × List Tok) :=
  match word? "CODEC" ts with
  | none => some (.default, ts)
  | some (.sym '(' :: .word e :: .sym ')' :: r) => (Enc.parse e).map fun x => (x, r)
  | some _ => none

/-- A field of a statement: name, type, encoding. -/
abbrev Field := Text × VT × Enc

/-- `parse_cnos_field` (parser.rs:2099-2108). -/
def field (ts : List Tok) : Option (Field × List Tok) :=
  match ident ts with
  | none => none
  | some (n, r) => match dataType r with
    | none => none
    | some (t, r) => (codec r).map fun x => ((n, t, x.1), x.2)

/-- `parse_parenthesized_column_list` (sqlparser), an empty list is allowed. -/
def tagList (ts : List Tok) : Option (List Text × List Tok) :=
  match sym? '(' ts with
  | none => none
  | some r => match sym? ')' r with
    | some r' => some ([], r')
    | none => match commas ident r.length r with
      | none => none
      | some (ns, r') => (sym? ')' r').map fun x => (ns, x)

/-- The loop of `parse_cnos_columns` (parser.rs:2118-2142); the first argument bounds the number of fields. -/
def columnsGo : Nat → List Tok → Option ((List Field × List Text) × List Tok)
  | 0, _ => none
  | k + 1, ts => match field ts with
    | none => none
    | some (f, r) => match sym? ',' r with
      | some r1 => match word? "TAGS" r1 with
        | some r2 => match tagList r2 with
          | none => none
          | some (ns, r3) => (sym? ')' r3).map fun x => (([f], ns), x)
        | none => (columnsGo k r1).map fun x => ((f :: x.1.1, x.1.2), x.2)
      | none => (sym? ')' r).map fun x => (([f], []), x)

/-- `parse_cnos_columns` (parser.rs:2110-2147). -/
def columns (ts : List Tok) : Option ((List Field × List Text) × List Tok) :=
  match sym? '(' ts with
  | none => none
  | some r => match sym? ')' r with
    | some _ => none
    | none => columnsGo r.length r

/-- Statements. -/
inductive Stmt where
  | createTenant (ine : Bool) (n : Text) (opts : List (Bool × Text))
  | createUser (ine : Bool) (n : Text) (opts : List (Text × Val))
  | createDb (ine : Bool) (n : Text) (o : DbRaw)
  | createRole (ine : Bool) (n : Text) (inh : Option Text)
  | grant (ps : List (Priv × Text)) (r : Text)
  | addMember (t u r : Text)
  | createTable (ine : Bool) (d n : Text) (fields : List Field) (tags : List Text)
deriving DecidableEq

/-- A name that may be given to a new object. -/
def newName (ts : List Tok) : Option (Text × List Tok) :=
  match ident ts with
  | none => none
  | some (n, r) => if nameOk n then some (n, r) else none

/-- `parse_create_tenant` (parser.rs:1314-1334). -/
def parseTenant (ts : List Tok) : Option (Stmt × List Tok) :=
  match newName (ine? ts).2 with
  | none => none
  | some (n, r) => match word? "WITH" r with
    | none => some (.createTenant (ine? ts).1 n [], r)
    | some r => (commas tenantOption r.length r).map fun x => (.createTenant (ine? ts).1 n x.1, x.2)

/-- `parse_create_user` (parser.rs:1269-1290). -/
def parseUser (ts : List Tok) : Option (Stmt × List Tok) :=
  match newName (ine? ts).2 with
  | none => none
  | some (n, r) => match word? "WITH" r with
    | none => some (.createUser (ine? ts).1 n [], r)
    | some r => (commas sqlOption r.length r).map fun x => (.createUser (ine? ts).1 n x.1, x.2)

/-- `parse_create_database` (parser.rs:1191-1208). -/
def parseDb (ts : List Tok) : Option (Stmt × List Tok) :=
  match newName (ine? ts).2 with
  | none => none
  | some (n, r) => match word? "WITH" r with
    | none => some (.createDb (ine? ts).1 n {}, r)
    | some r => (dbOptions r.length r {}).map fun x => (.createDb (ine? ts).1 n x.1, x.2)

/-- `parse_create_role` (parser.rs:1292-1312): what follows `inherit` may be missing. -/
def parseRole (ts : List Tok) : Option (Stmt × List Tok) :=
  match newName (ine? ts).2 with
  | none => none
  | some (n, r) => match word? "INHERIT" r with
    | none => some (.createRole (ine? ts).1 n none, r)
    | some r => match ident r with
      | some (i, r') => some (.createRole (ine? ts).1 n (some i), r')
      | none => some (.createRole (ine? ts).1 n none, r)

/-- `parse_grant_permission` (parser.rs:1210-1223). -/
def action (ts : List Tok) : Option (Priv × List Tok) :=
  match word? "READ" ts with
  | some r => some (.read, r)
  | none => match word? "WRITE" ts with
    | some r => some (.write, r)
    | none => (word? "ALL" ts).map fun r => (.full, r)

/-- `parse_privilege` (parser.rs:1225-1231). -/
def privilege (ts : List Tok) : Option ((Priv × Text) × List Tok) :=
  match action ts with
  | none => none
  | some (p, r) => ((word? "ON" r).bind (word? "DATABASE")).bind fun r => (ident r).map fun x => ((p, x.1), x.2)

/-- `parse_grant` (parser.rs:1233-1249). -/
def parseGrant (ts : List Tok) : Option (Stmt × List Tok) :=
  match commas privilege ts.length ts with
  | none => none
  | some (ps, r) => (word? "TO" r).bind fun r => (ident ((word? "ROLE" r).getD r)).map fun x => (.grant ps x.1, x.2)

/-- `parse_alter_tenant` (parser.rs:698-729), adding a user only. -/
def parseAlter (ts : List Tok) : Option (Stmt × List Tok) :=
  match ident ts with
  | none => none
  | some (t, r) => ((word? "ADD" r).bind (word? "USER")).bind fun r => match ident r with
    | none => none
    | some (u, r) => (word? "AS" r).bind fun r => (ident r).map fun x => (.addMember t u x.1, x.2)

/-- `parse_create_table` (parser.rs:1043-1056), for a name with its database. -/
def parseTable (ts : List Tok) : Option (Stmt × List Tok) :=
  match ident (ine? ts).2 with
  | none => none
  | some (d, r) => match (sym? '.' r).bind ident with
    | none => none
    | some (n, r) => if nameOk (d ++ '.' :: n) then (columns r).map fun x => (.createTable (ine? ts).1 d n x.1.1 x.1.2, x.2) else none

/-- `parse_statement` (parser.rs:280-361) and `parse_create` (:1660-1682). -/
def statement (ts : List Tok) : Option (Stmt × List Tok) :=
  match word? "CREATE" ts with
  | some r => match word? "TABLE" r with
    | some r => parseTable r
    | none => match word? "DATABASE" r with
      | some r => parseDb r
      | none => match word? "TENANT" r with
        | some r => parseTenant r
        | none => match word? "USER" r with
          | some r => parseUser r
          | none => match word? "ROLE" r with
            | some r => parseRole r
            | none => none
  | none => match word? "GRANT" ts with
    | some r => parseGrant r
    | none => ((word? "ALTER" ts).bind (word? "TENANT")).bind parseAlter

/-- `parse_sql` (parser.rs:243-277): one statement, then nothing but `;`.  A text with several statements is refused later. -/
def parseSql (ts : List Tok) : Option Stmt :=
  match statement ts with
  | none => none
  | some (s, r) => if r.all (· = .sym ';') then some s else none

/-! ## The store of the meta service -/

/-- Keys of the store (`key_path.rs`). -/
inductive Key where
  | tenant (n : Text)
  | user (n : Text)
  | db (t n : Text)
  | role (t n : Text)
  | member (t u : Text)
  | table (t d n : Text)
deriving DecidableEq

/-- Values of the store. -/
inductive Entry where
  | tenant (o : TenantOpts)
  | user (o : UserOpts)
  | db (d : Db)
  | role (inh : Option Sys) (privs : Text → Option Priv)
  | member (r : Text)
  | table (cols : List Col)

abbrev Meta := Key → Option Entry

/-- `insert` of the store. -/
def put (k : Key) (v : Entry) (m : Meta) : Meta := fun x => if x = k then some v else m x

/-- A new entry: refused if there is one already, unless the statement says `if not exists`, then nothing happens. -/
def create (e : Bool) (k : Key) (v : Entry) (m : Meta) : Option Meta :=
  match m k with
  | some _ => if e then some m else none
  | none => some (put k v m)

/-- `sql_options_to_tenant_options` (logical_planner.rs:462-497); the last of equal options counts. -/
def planTenant : List (Bool × Text) → TenantOpts → Option TenantOpts
  | [], o => some o
  | (true, c) :: r, o => planTenant r { o with comment := some c }
  | (false, d) :: r, o => (Dur.parse d).bind fun d => planTenant r { o with dropAfter := some d }

/-- `sql_options_to_user_options` (logical_planner.rs:506-549), without plain passwords. -/
def planUser : List (Text × Val) → UserOpts → Option UserOpts
  | [], o => some o
  | (k, v) :: r, o =>
    if k = "must_change_password".toList then (match v with | .bool b => planUser r { o with mustChange := some b } | _ => none)
    else if k = "rsa_public_key".toList then (match v with | .str s => planUser r { o with rsa := some s } | _ => none)
    else if k = "comment".toList then (match v with | .str s => planUser r { o with comment := some s } | _ => none)
    else if k = "granted_admin".toList then (match v with | .bool b => planUser r { o with admin := some b } | _ => none)
    else if k = "hash_password".toList then (match v with | .str s => planUser r { o with hash := some s } | _ => none)
    else none

/-- `bool::from_str`. -/
def parseBool (t : Text) : Option Bool :=
  if t = "true".toList then some true else if t = "false".toList then some false else none

/-- An option that may be missing. -/
def orDflt {α β : Type} (d : β) (f : α → Option β) : Option α → Option β
  | none => some d
  | some a => f a

/-- `make_database_option` and `make_database_config` (planner.rs:1574-1643), then the settings of the environment. -/
def planDb (env : Env) (o : DbRaw) : Option Db := do
  let prec ← orDflt env.dflt.prec Prec.parse o.prec
  let maxMem ← orDflt env.dflt.maxMem env.parseBytes o.maxMem
  let walMax ← orDflt env.dflt.walMax env.parseBytes o.walMax
  let walSync ← orDflt env.dflt.walSync parseBool o.walSync
  let strict ← orDflt env.dflt.strict parseBool o.strict
  let ttl ← orDflt env.dflt.ttl Dur.parse o.ttl
  let vnodeDur ← orDflt env.dflt.vnodeDur Dur.parse o.vnodeDur
  some { prec, maxMem, parts := o.parts.getD env.dflt.parts, walMax, walSync, strict, readers := o.readers.getD env.dflt.readers, ttl,
         shard := o.shard.getD env.dflt.shard, replica := o.replica.getD env.dflt.replica, vnodeDur }

/-- `check_column_encoding` (planner.rs:1688-1713) with the lists of codec.rs:5-35. -/
def encOk : VT → Enc → Bool
  | .int, e => e ∈ [Enc.default, .null, .delta, .deltaTs, .quantile]
  | .uint, e => e ∈ [Enc.default, .null, .delta, .deltaTs, .quantile]
  | .float, e => e ∈ [Enc.default, .null, .gorilla, .quantile]
  | .str, e => e ∈ [Enc.default, .null, .gzip, .bzip, .zstd, .snappy, .zlib]
  | .geometry _, e => e ∈ [Enc.default, .null, .gzip, .bzip, .zstd, .snappy, .zlib]
  | .bool, e => e ∈ [Enc.default, .null, .bitPack]
  | .unknown, _ => false

/-- The columns of a new table (planner.rs:918-943): time, tags, fields. -/
def planCols (p : Prec) (fs : List Field) (tags : List Text) : List Col :=
  ⟨"time".toList, .time p, .default⟩ :: (tags.map fun n => ⟨n, .tag, .default⟩) ++ fs.map fun f => ⟨f.1, .field f.2.1, f.2.2⟩

/-- No name twice (planner.rs:945-952). -/
def distinct : List Text → Bool
  | [] => true
  | n :: r => !(n ∈ r) && distinct r

/-- A grant (role.rs:213-221). -/
def grantTo (p : Text → Option Priv) (d : Text) (v : Priv) : Text → Option Priv := fun x => if x = d then some v else p x

/-- The loop of `process_grant_privileges` (storage.rs:1571-1580). -/
def grants (t : Text) (m : Meta) : List (Priv × Text) → (Text → Option Priv) → Option (Text → Option Priv)
  | [], p => some p
  | (v, d) :: r, p => if (m (.db t d)).isSome then grants t m r (grantTo p d v) else none

/-- A statement in a session of tenant `t`: planning and the command of the meta service (`process_create_tenant` storage.rs:1341-1355,
`process_create_user` :1257-1270, `process_create_db` :1038-1062 with `check_db_schema_valid` :1095-1106, `process_create_role`
:1517-1542, `process_grant_privileges` :1562-1587, `process_add_member_to_tenant` :1450-1472, `process_create_table` :1108-1131).
`none`: refused. -/
def exec (env : Env) (t : Text) (m : Meta) : Stmt → Option Meta
  | .createTenant e n os => (planTenant os ⟨none, none, none⟩).bind fun o => create e (.tenant n) (.tenant o) m
  | .createUser e n os => (planUser os ⟨none, none, none, none, none⟩).bind fun o => create e (.user n) (.user o) m
  | .createDb e n o => (planDb env o).bind fun d =>
    match m (.db t n) with
    | some _ => if e then some m else none
    | none => if (m (.tenant t)).isSome ∧ d.replica ≤ env.nodes ∧ d.shard ≠ 0 then some (put (.db t n) (.db d) m) else none
  | .createRole e n i =>
    if (Sys.parse n).isSome then none
    else match i with
      | none => if (m (.tenant t)).isSome then create e (.role t n) (.role none fun _ => none) m else none
      | some i => (Sys.parse i).bind fun s =>
        if (m (.tenant t)).isSome then create e (.role t n) (.role (some s) fun _ => none) m else none
  | .grant ps r =>
    if (Sys.parse r).isSome then none
    else match m (.role t r) with
      | some (.role i p) => (grants t m ps p).map fun p' => put (.role t r) (.role i p') m
      | _ => none
  | .addMember t' u r =>
    if (m (.tenant t')).isSome ∧ (m (.user u)).isSome ∧ (m (.member t' u)).isNone ∧ ((m (.role t' r)).isSome ∨ (Sys.parse r).isSome)
    then some (put (.member t' u) (.member r) m) else none
  | .createTable e d n fs tags =>
    match m (.db t d) with
    | some (.db c) =>
      if (fs.all fun f => encOk f.2.1 f.2.2) ∧ distinct ((planCols c.prec fs tags).map Col.name)
      then create e (.table t d n) (.table (planCols c.prec fs tags)) m else none
    | _ => none

/-- A text sent to the server. -/
def sql (env : Env) (t : Text) (x : Text) (m : Meta) : Option Meta :=
  ((lex x).bind parseSql).bind (exec env t m)

/-! ## The client -/

/-- `BufReader::lines`: the characters of the line so far are the second argument. -/
def linesGo : Text → Text → List Text
  | [], a => if a = [] then [] else [a]
  | c :: t, a => if c = '\n' then a :: linesGo t [] else linesGo t (a ++ [c])

/-- The lines of a text. -/
def lines (t : Text) : List Text := linesGo t []

/-- `str::trim_end`. -/
def trimEnd (t : Text) : Text := (t.reverse.dropWhile Char.isWhitespace).reverse

/-- `str::trim`. -/
def trim (t : Text) : Text := trimEnd (t.dropWhile Char.isWhitespace)

/-- `trim_start_matches`; the first argument bounds the number of times. -/
def trimStart (p : Text) : Nat → Text → Text
  | 0, t => t
  | k + 1, t => if p.isPrefixOf t then trimStart p k (t.drop p.length) else t

/-- The client: text of an unfinished statement, tenant of the session, the store, the statements that failed. -/
structure Client where
  query : Text
  tenant : Text
  store : Meta
  failed : List Text

/-- Sends a text to the server; errors are printed (exec.rs:56-64). -/
def Client.send (env : Env) (c : Client) (x : Text) : Client :=
  match sql env c.tenant x c.store with
  | some m => { c with query := [], store := m }
  | none => { c with query := [], failed := c.failed ++ [x] }

def changeTenant : Text := "\\change_tenant".toList

/-- A line (exec.rs:28-74), with `process_cli_command` and without `error_stop`; the database of the session is left out. -/
def Client.line (env : Env) (c : Client) (l : Text) : Client :=
  if "--".toList.isPrefixOf l then c
  else if changeTenant.isPrefixOf (trim l) then { c with tenant := trim (trimStart changeTenant (trim l).length (trim l)) }
  else if "\\c".toList.isPrefixOf l then c
  else
    let q := c.query ++ trimEnd l
    if (trimEnd l).getLast? = some ';' then c.send env q else { c with query := q ++ ['\n'] }

/-- `exec_from_lines` (exec.rs:21-89): at the end, what is left is sent. -/
def restore (env : Env) (c : Client) (x : Text) : Client :=
  let c' := (lines x).foldl (Client.line env) c
  if c'.query = [] then c' else c'.send env c'.query

/-! ## The dump -/

/-- A table of time series: name and columns. -/
abbrev Table := Text × List Col

/-- A tenant with its objects, in the order of `BTreeMap` and of the sorts in `dump_tenant`. -/
structure Tenant where
  name : Text
  opts : TenantOpts
  dbs : List (Text × Db × List Table)
  roles : List (Text × Option Sys × List (Text × Priv))
  members : List (Text × Text)

/-- What is stored in a cluster. -/
structure Source where
  tenants : List Tenant
  users : List (Text × UserOpts)

/-- `eq_ignore_ascii_case`. -/
def same (a b : Text) : Bool := lower a = lower b

/-- Things in a dump: a line of comment, a change of tenant, a statement. -/
inductive Item where
  | note (t : Text)
  | change (t : Text)
  | stmt (ps : List Piece)

/-- The line of a thing. -/
def Item.text : Item → Text
  | .note t => "-- ".toList ++ t
  | .change t => "\\change_tenant ".toList ++ t
  | .stmt ps => render ps

def rootName : Text := "root".toList
def cnosdb : Text := "cnosdb".toList
def publicDb : Text := "public".toList
def usage : Text := "usage_schema".toList

/-- The databases of a tenant that are printed (dump.rs:101-109). -/
def dumpDbs (env : Env) (t : Tenant) : List Item :=
  (t.dbs.filter fun d => !(same t.name cnosdb && same d.1 publicDb)).map fun d => .stmt (dbSql env true d.1 d.2.1)

/-- A role (dump.rs:117-119, `role_to_sql` sql/mod.rs:210-216). -/
def dumpRole (r : Text × Option Sys × List (Text × Priv)) : List Item :=
  .stmt (roleSql r.1 r.2.1) :: r.2.2.map fun p => .stmt (grantSql r.1 p)

/-- The members of a tenant that are printed (dump.rs:121-143): those that are users. -/
def dumpMembers (us : List (Text × UserOpts)) (t : Tenant) : List Item :=
  ((t.members.filter fun m => us.any fun u => u.1 = m.1).filter fun m => !(same m.1 rootName && same t.name cnosdb)).map fun m =>
    .stmt (memberSql t.name m.1 m.2)

/-- The tables of a database (dump.rs:146-158). -/
def dumpTables (d : Text × Db × List Table) : List Item :=
  d.2.2.map fun x => .stmt (tableSql (same d.1 usage) d.1 x.1 x.2)

/-- `dump_tenant` (dump.rs:86-161) with the line before it (dump.rs:42). -/
def dumpTenant (env : Env) (us : List (Text × UserOpts)) (t : Tenant) : List Item :=
  [.note ("Dump Tenant ".toList ++ t.name ++ " Object".toList), .change t.name] ++ dumpDbs env t ++ t.roles.flatMap dumpRole ++
    dumpMembers us t ++ t.dbs.flatMap dumpTables

/-- Whether a member of the tenant has this name (`users_used`, dump.rs:38, 131). -/
def memberOf (t : Tenant) (n : Text) : Bool := t.members.any fun m => m.1 = n

/-- `dump_impl` (dump.rs:16-84) with its filter. -/
def dump (env : Env) (f : Option Text) (s : Source) : List Item :=
  let ts := s.tenants.filter fun t => match f with | none => true | some n => decide (t.name = n)
  let us := s.users.filter fun u => !same u.1 rootName
  .note "Dump Global Object".toList ::
    ((ts.filter fun t => !same t.name cnosdb).map fun t => .stmt (tenantSql true t.name t.opts)) ++
    (match f with
     | none => us.map fun u => .stmt (userSql false u.1 u.2)
     | some _ => (us.filter fun u => ts.any (memberOf · u.1)).map fun u => .stmt (userSql true u.1 u.2)) ++
    ts.flatMap (dumpTenant env s.users)

/-- The text of a dump: every line ends with a line feed (dump.rs:81-82). -/
def dumpText (is : List Item) : Text := is.flatMap fun i => i.text ++ ['\n']

end Verif.Dump
