import Verif.QueryModel

/-!
Model of how queries are run: the loops over the configurations of a query and the comparison with an
expected output (nca/NetworkConfig/NetworkConfigQueryRunner.py), the runs of scheme files
(nca/SchemeRunner.py) and the exit status of the command line (nca/nca_cli.py).

Texts are lists of characters.  An exception is `none`.  What a query computes for its configurations is
a parameter (`World.exec`): the theorems hold for any answers, and PropsCli.lean instantiates it
with the queries of QueryModel.lean.  Not modelled: explanations (`ExplTracker`), time stamps, printed
warnings, the checks of the fields of scheme files, `--period`, the flags that create or update expected
outputs (off by default), and output files.
-/

namespace Verif
namespace Runner

abbrev Text := List Char

/-- The kinds of queries: the keys of `allowed_elements` (SchemeRunner.py 223-227), each the class
`<Key>Query` of NetworkConfigQuery.py (NetworkConfigQueryRunner.py 67). -/
inductive Key
  | emptiness | redundancy | equivalence | strongEquivalence | semanticDiff | forbids | permits | interferes
  | pairwiseInterferes | containment | twoWayContainment | disjointness | vacuity | sanity | allCaptured
  | connectivityMap
  deriving DecidableEq, Repr

/-- `QueryType` (NetworkConfigQuery.py 29-33). -/
inductive QType
  | single | toBase | pairs | pairwise
  deriving DecidableEq, Repr

/-- `get_query_type()`: NetworkConfigQuery.py 194-196 (one configuration), 951-953 (two, compared with
the base), 1044-1046, 1093-1095, 1389-1391, 1480-1482, 1598-1600. -/
def Key.qtype : Key → QType
  | .equivalence | .semanticDiff | .strongEquivalence | .twoWayContainment => .pairs
  | .pairwiseInterferes => .pairwise
  | .forbids | .permits | .interferes | .containment => .toBase
  | _ => .single

/-- `get_supported_output_formats()`: NetworkConfigQuery.py 47-49, 413-415, 678-680, 1097-1099. -/
def Key.formats : Key → List String
  | .sanity => ["txt"]
  | .connectivityMap => ["txt", "yaml", "csv", "md", "dot", "json", "jpg", "html", "txt_no_fw_rules"]
  | .semanticDiff => ["txt", "yaml", "csv", "md", "json", "txt_no_fw_rules"]
  | _ => ["txt", "yaml", "json"]

/-- The queries that turn `fullExplanation` on when they are executed: NetworkConfigQuery.py 250, 295, 377,
784, 1365, 1742. -/
def Key.full : Key → Bool
  | .emptiness | .vacuity | .redundancy | .connectivityMap | .semanticDiff | .allCaptured => true
  | _ => false

/-- The kinds of policies that can be named: `input_kind_name_str_to_policy_type`
(NetworkPolicy.py 35-48). -/
inductive Kind
  | k8s | calico | calicoGlobal | istio | sidecar | ingress | other
  deriving DecidableEq, Repr

/-- `input_kind_name_str_to_policy_type` (NetworkPolicy.py 35-48). -/
def kindOf (t : Text) : Option Kind :=
  if t = "K8sNetworkPolicy".toList then some .k8s
  else if t = "CalicoNetworkPolicy".toList then some .calico
  else if t = "CalicoGlobalNetworkPolicy".toList then some .calicoGlobal
  else if t = "IstioAuthorizationPolicy".toList then some .istio
  else if t = "IstioSidecar".toList then some .sidecar
  else if t = "K8sIngress".toList then some .ingress
  else none

/-- What `find_policy` reads of a policy: its full name, its name, its kind. -/
structure PolId where
  full : Text
  name : Text
  kind : Kind
  deriving DecidableEq, Repr

/-- `numerical_result`, the output and `query_not_executed` of one run of a query. -/
structure Iter where
  num : Int
  out : Text
  notExec : Bool

/-- The fields of `OutputConfiguration` (OutputConfiguration.py 19-31) that the runner reads. -/
structure OutConf where
  format : String
  full : Bool

/-- The configurations and the queries. -/
structure World (Cfg : Type) where
  /-- `config.name` -/
  name : Cfg → Text
  /-- `peer_container.get_num_peers()` -/
  numPeers : Cfg → Nat
  /-- `policies_container.policies` -/
  policies : Cfg → List PolId
  /-- the last two lines of `clone_with_just_one_policy` (NetworkConfig.py 138-139) -/
  only : Cfg → PolId → Option Cfg
  /-- `execute` of the query on its configurations; `none`: exception -/
  exec : Key → OutConf → Bool → List Cfg → Option Iter
  /-- output for a configuration without peers (NetworkConfigQuery.py 75-77) -/
  noPeers : OutConf → Cfg → Text
  /-- `json.dumps` or `yaml.dump` of the outputs (NetworkConfigQueryRunner.py 52-56) -/
  dump : String → List Text → Text

variable {Cfg : Type} (W : World Cfg)

/-! ### One run of a query -/

/-- `execute_and_compute_output_in_required_format` (NetworkConfigQuery.py 60-99), with the new value of
`fullExplanation`.  The changes of the domains of the peers (82-91, 95-98) are not modelled here. -/
def execute (o : OutConf) (k : Key) (cmd : Bool) (cs : List Cfg) : Option (Iter × Bool) :=
  match cs.find? (fun c => decide (W.numPeers c = 0)) with
  | some c => some (⟨0, W.noPeers o c, true⟩, o.full)
  | none =>
    if o.format ∈ k.formats then (W.exec k o cmd cs).map (fun a => (a, o.full || k.full))
    else some (⟨0, [], true⟩, o.full)

/-- `QueryResult` (NetworkConfigQueryRunner.py 17-24). -/
structure QueryResult where
  num : Int
  outs : List Text
  notExec : Nat

/-- `QueryResult.update` (NetworkConfigQueryRunner.py 26-37). -/
def QueryResult.update (r : QueryResult) (i : Iter) : QueryResult :=
  ⟨r.num + i.num, r.outs ++ [i.out], r.notExec + (if i.notExec then 1 else 0)⟩

/-- `'\n'.join(lines)` -/
def joinLines : List Text → Text
  | [] => []
  | [l] => l
  | l :: ls => l ++ '\n' :: joinLines ls

/-- The output of `compute_final_results` (NetworkConfigQueryRunner.py 39-58). -/
def QueryResult.output (r : QueryResult) (format : String) : Text :=
  if format = "json" ∨ format = "yaml" then W.dump format r.outs else joinLines r.outs

/-! ### Names of configurations -/

/-- `s.split('/', 1)` when `s` has a slash; the second part is empty otherwise. -/
def splitSlash : Text → Text × Text
  | [] => ([], [])
  | c :: cs => if c = '/' then ([], cs) else let r := splitSlash cs; (c :: r.1, r.2)

/-- `network_configs[name]` -/
def lookup (configs : List (Text × Cfg)) (name : Text) : Option Cfg := (configs.find? (fun e => decide (e.1 = name))).map (·.2)

/-- `policy_name.count('//') == 0` -/
def noDoubleSlash : Text → Bool
  | a :: b :: cs => !(a = '/' && b = '/') && noDoubleSlash (b :: cs)
  | _ => true

/-- `find_policy` (NetworkConfig.py 83-100).  The policies found by the loop over the kinds are given in
the order of the list. -/
def findPolicy (ps : List PolId) (name : Text) (kind : Option Kind) : List PolId :=
  let res := ps.filter (fun p => decide (p.full = name) && (kind.isNone || decide (kind = some p.kind)))
  if res.isEmpty && noDoubleSlash name then
    ps.filter (fun p => decide (name = p.name) && (kind.isNone || decide (kind = some p.kind)))
  else res

/-- `clone_with_just_one_policy` (NetworkConfig.py 124-140). -/
def justOne (c : Cfg) (name : Text) (kind : Option Kind) : Option Cfg :=
  match findPolicy (W.policies c) name kind with
  | [p] => W.only c p
  | _ => none

/-- `_parse_network_config_of_specified_policy` (NetworkConfigQueryRunner.py 73-101). -/
def parseRef (configs : List (Text × Cfg)) (name : Text) : Option (Cfg × Text × Option Kind) :=
  let n := name.count '/'
  let s := splitSlash name
  if n ≤ 2 then (lookup configs s.1).map (fun c => (c, s.2, none))
  else if n = 3 then
    let l := splitSlash s.2
    match kindOf l.1 with
    | none => none
    | some k => (lookup configs s.1).map (fun c => (c, l.2, some k))
  else none

/-- `_get_config` (NetworkConfigQueryRunner.py 103-123) for names. -/
def getConfig (configs : List (Text × Cfg)) (name : Text) : Option Cfg :=
  if '/' ∉ name then lookup configs name
  else match parseRef configs name with
    | none => none
    | some (c, p, k) => justOne W c p k

/-! ### The loops -/

/-- `_run_query_for_each_config` (NetworkConfigQueryRunner.py 170-179): the runs, in order. -/
def jobsEach {α : Type} (cs : List α) : List (List α) := cs.map (fun c => [c])

/-- `_run_query_on_configs_vs_base_config` (NetworkConfigQueryRunner.py 181-187). -/
def jobsBase {α : Type} : List α → List (List α)
  | [] => []
  | b :: cs => cs.map (fun c => [c, b])

/-- `_run_query_on_config_vs_followed_configs` (NetworkConfigQueryRunner.py 189-197). -/
def jobsPairs {α : Type} (cs : List α) : List (List α) :=
  (List.range (cs.length - 1)).flatMap (fun i =>
    (List.range' (i + 1) (cs.length - (i + 1))).map (fun j => (cs[i]?).toList ++ (cs[j]?).toList))

/-- `_run_query_on_all_pairs` (NetworkConfigQueryRunner.py 199-207). -/
def jobsAll {α : Type} [DecidableEq α] (cs : List α) : List (List α) :=
  cs.flatMap (fun a => (cs.filter (fun b => decide (a ≠ b))).map (fun b => [a, b]))

/-- The runs of a query. -/
def jobs {α : Type} [DecidableEq α] (k : Key) (cs : List α) : List (List α) :=
  match k.qtype with
  | .single => jobsEach cs
  | .toBase => jobsBase cs
  | .pairs => jobsPairs cs
  | .pairwise => jobsAll cs

/-- All elements or nothing. -/
def sequence {α : Type} : List (Option α) → Option (List α)
  | [] => some []
  | none :: _ => none
  | some a :: l => (sequence l).map (a :: ·)

/-- One run of the loops: the configurations are looked up, the query is executed, the result is
updated. -/
def step (get : α → Option Cfg) (k : Key) (cmd : Bool) (format : String) (st : QueryResult × Bool) (job : List α) :
    Option (QueryResult × Bool) :=
  match sequence (job.map get) with
  | none => none
  | some cs => (execute W ⟨format, st.2⟩ k cmd cs).map (fun r => (st.1.update r.1, r.2))

/-- The loop over the runs. -/
def loop {α : Type} (get : α → Option Cfg) (k : Key) (cmd : Bool) (format : String) (st : QueryResult × Bool)
    (js : List (List α)) : Option (QueryResult × Bool) :=
  js.foldlM (step W get k cmd format) st

/-! ### Expected outputs -/

/-- `s.split('\n')` -/
def splitLines : Text → List Text
  | [] => [[]]
  | c :: cs => if c = '\n' then [] :: splitLines cs
    else match splitLines cs with
      | [] => [[c]]
      | l :: ls => (c :: l) :: ls

/-- Reading a text file: universal newlines. -/
def newlines : Text → Text
  | '\r' :: '\n' :: cs => '\n' :: newlines cs
  | '\r' :: cs => '\n' :: newlines cs
  | c :: cs => c :: newlines cs
  | [] => []

/-- The lines of an open file, without their ends. -/
def fileLines (t : Text) : List Text :=
  let ls := splitLines t
  if ls.getLast? = some [] then ls.dropLast else ls

/-- `str.isspace` of a character. -/
def isSpace (c : Char) : Bool :=
  let n := c.toNat
  (9 ≤ n && n ≤ 13) || (28 ≤ n && n ≤ 32) || n = 0x85 || n = 0xa0 || n = 0x1680 || (0x2000 ≤ n && n ≤ 0x200a)
    || n = 0x2028 || n = 0x2029 || n = 0x202f || n = 0x205f || n = 0x3000

/-- `line.rstrip()` -/
def rstrip (l : Text) : Text := (l.reverse.dropWhile isSpace).reverse

/-- The expected output of a query: not given, a missing file, a file with the given contents. -/
inductive Golden
  | notGiven
  | missing
  | file (t : Text)

/-- The loop over the lines of the file (NetworkConfigQueryRunner.py 216-227): `none` when a mismatch is
reported, the last value of `golden_file_line_num` otherwise. -/
def compareLoop (actual : List Text) : Nat → Nat → List Text → Option Nat
  | last, _, [] => some last
  | _, i, g :: gs =>
    match actual[i]? with
    | none => none
    | some a => if rstrip g ≠ a then none else compareLoop actual i (i + 1) gs

/-- `_compare_actual_vs_expected_output` (NetworkConfigQueryRunner.py 209-243). -/
def compare (out : Text) : Golden → Nat
  | .notGiven => 0
  | .missing => 1
  | .file t =>
    let actual := splitLines out
    match compareLoop actual 0 0 (fileLines (newlines t)) with
    | none => 1
    | some n =>
      if n ≠ actual.length - 1 then
        if (actual.drop (n + 1)).all (fun l => l.isEmpty) then 0 else 1
      else 0

/-! ### A query -/

/-- What `run_query` returns: a plain 0 (NetworkConfigQueryRunner.py 134-135), or the three results. -/
inductive Ret
  | plain
  | triple (res : Int) (cmp notExec : Nat)
  deriving DecidableEq, Repr

/-- `run_query` (NetworkConfigQueryRunner.py 125-160), with the new value of `fullExplanation`. -/
def runQuery {α : Type} [DecidableEq α] (get : α → Option Cfg) (k : Key) (cs : List α) (golden : Golden) (o : OutConf)
    (cmd : Bool) : Option (Ret × Bool) :=
  if k.qtype ≠ .single ∧ cs.length ≤ 1 then some (.plain, o.full)
  else
    (loop W get k (if k.qtype = .pairwise ∨ k.qtype = .single then false else cmd) o.format (⟨0, [], 0⟩, o.full) (jobs k cs)).map
      (fun r => (.triple r.1.num (if r.2 then compare (r.1.output W o.format) golden else 0) r.1.notExec, r.2))

/-! ### Scheme files -/

/-- A query of a scheme file (SchemeRunner.py 228-256): its sub-queries in the order of the file, what is
expected, and its output configuration. -/
structure Query where
  subs : List (Key × List Text)
  expected : Option Int
  expectedNotExecuted : Option Int
  golden : Golden
  out : OutConf

/-- The loop over the keys of a query (SchemeRunner.py 237-241); unpacking a plain 0 raises an
exception. -/
def runSubs (configs : List (Text × Cfg)) (golden : Golden) (format : String) :
    List (Key × List Text) → (Int × Nat × Nat) → Bool → Option (Int × Nat × Nat)
  | [], r, _ => some r
  | s :: ss, _, full =>
    match runQuery W (getConfig W configs) s.1 s.2 golden ⟨format, full⟩ false with
    | some (.triple res cmp ne, full') => runSubs configs golden format ss (res, cmp, ne) full'
    | _ => none

/-- The body of the loop of `run_queries` (SchemeRunner.py 228-256): the number of mismatches of the
query. -/
def queryErrors (configs : List (Text × Cfg)) (q : Query) : Option Nat :=
  (runSubs W configs q.golden q.out.format q.subs (0, 0, 0) q.out.full).map (fun r =>
    (match q.expected with
      | some e => if r.1 ≠ e then 1 else 0
      | none => 0) +
    (if (r.2.2 : Int) ≠ q.expectedNotExecuted.getD 0 then 1 else 0) +
    (if r.2.1 ≠ 0 then 1 else 0))

/-- Result of reading the resources of a configuration (`get_network_config`). -/
inductive Load (Cfg : Type)
  | ok (c : Cfg) (findings : Nat)
  | syntaxError
  | crash

/-- An entry of `networkConfigList`. -/
structure Entry (Cfg : Type) where
  name : Text
  load : Load Cfg
  expectedWarnings : Option Int
  expectedError : Option Bool

/-- `1` when the expected error flag is given and differs (SchemeRunner.py 125-129). -/
def errorMismatch (e : Option Bool) (found : Bool) : Nat :=
  match e with
  | some b => if b ≠ found then 1 else 0
  | none => 0

/-- `_add_config` (SchemeRunner.py 77-129); configurations are stored under their own name. -/
def addConfig (st : List (Text × Cfg) × Nat) (e : Entry Cfg) : Option (List (Text × Cfg) × Nat) :=
  if (lookup st.1 e.name).isSome then none
  else match e.load with
    | .ok c findings =>
      some ((W.name c, c) :: st.1,
        st.2 + (match e.expectedWarnings with
          | some w => if (findings : Int) ≠ w then 1 else 0
          | none => 0) + errorMismatch e.expectedError false)
    | .syntaxError => if e.expectedError.isNone then none else some (st.1, st.2 + errorMismatch e.expectedError true)
    | .crash => none

/-- The name given to a configuration (ResourcesHandler.py 197-203): `cfg` is the first entry of the list
of policies. -/
def configName (asked : Text) (cfg : Option Text) : Text :=
  match cfg with
  | some n => if n ≠ [] ∧ asked = "global".toList then n else asked
  | none => asked

/-- A scheme file. -/
structure Scheme (Cfg : Type) where
  entries : List (Entry Cfg)
  queries : List Query

/-- `activate_exp_tracker` (SchemeRunner.py 177-211): whether the queries are run.  `need_connectivity and
[...]` is the second list unless the first is empty. -/
def activate (qs : List Query) : Bool :=
  let need := qs.map (fun q => decide (q.out.format = "html"))
  let n := (need.filter id).length
  if n = 0 then true else if n = 1 && need.head? = some true then true else false

/-- The loop of `run_queries` (SchemeRunner.py 213-256). -/
def runQueries (configs : List (Text × Cfg)) (qs : List Query) (res : Nat) : Option Nat :=
  qs.foldlM (fun acc q => (queryErrors W configs q).map (acc + ·)) res

/-- `run_scheme` (SchemeRunner.py 131-162); the inner `none` is Python's `None`. -/
def runScheme (s : Scheme Cfg) : Option (Option Int) :=
  if activate s.queries then
    match s.entries.foldlM (addConfig W) ([], 0) with
    | none => none
    | some st => (runQueries W st.1 s.queries st.2).map (fun n : Nat => some (Int.ofNat n))
  else some none

/-! ### The command line -/

/-- The mutually exclusive switches (nca_cli.py 265-289), as far as they choose the query. -/
structure Args where
  equiv : Bool
  interferes : Bool
  forbids : Bool
  permits : Bool
  connectivity : Bool
  semanticDiff : Bool
  golden : Golden
  format : String

/-- The query chosen by `run_args` (nca_cli.py 160-228): its kind, whether there is a base configuration,
whether it comes second, and the expected output. -/
structure Choice where
  key : Key
  pair : Bool
  baseSecond : Bool
  golden : Golden

/-- nca_cli.py 160-228: later switches override earlier ones. -/
def choose (a : Args) : Choice :=
  let c : Choice := ⟨.sanity, false, false, .notGiven⟩
  let c := if a.equiv then { c with key := .twoWayContainment, pair := true, baseSecond := true } else c
  let c := if a.interferes then { c with key := .interferes, pair := true, baseSecond := true } else c
  let c := if a.forbids then { c with key := .forbids, pair := true } else c
  let c := if a.permits then { c with key := .permits, pair := true } else c
  let c := if a.connectivity then { c with key := .connectivityMap, pair := false, golden := a.golden } else c
  if a.semanticDiff then { c with key := .semanticDiff, pair := true, golden := a.golden } else c

/-- `_compute_return_value` (nca_cli.py 114-121). -/
def returnValue (res : Int) (cmp notExec : Nat) : Int := 4 * notExec + 2 * cmp + res

/-- `run_args` without a scheme (nca_cli.py 137-248) for the loaded configurations, with
`_execute_single_config_query` and `_execute_pair_configs_query` (nca_cli.py 85-111).  Configurations are
told apart by their position. -/
def runCli (config base : Cfg) (a : Args) : Option Int :=
  let c := choose a
  let get : Bool → Option Cfg := fun b => some (if b then base else config)
  if c.pair then
    match runQuery W get c.key (if c.baseSecond then [false, true] else [true, false]) c.golden ⟨a.format, false⟩ true with
    | some (.triple res cmp ne, _) => some (returnValue res cmp ne)
    | _ => none
  else
    match runQuery W get c.key [false] c.golden ⟨a.format, false⟩ false with
    | some (.triple res cmp ne, _) => some (returnValue (if res > 0 then 1 else 0) cmp ne)
    | _ => none

/-- `nca_main` (nca_cli.py 338-352): the value given to `sys.exit`; `none` is Python's `None`. -/
def mainValue (return0 : Bool) (r : Option (Option Int)) : Option Int :=
  match r with
  | some v => if return0 then some 0 else v
  | none => if return0 then some 0 else some 7

/-- The exit status for a value given to `sys.exit`: the low eight bits; 0 for `None`. -/
def exitStatus : Option Int → Int
  | none => 0
  | some n => n % 256

end Runner
end Verif
