import Verif.QueryModel
import Verif.StoreProofs
/-!
Model of the sanity query: `SanityQuery` (nca/NetworkConfig/NetworkConfigQuery.py 408-671) and the
functions of the policy classes that only it calls: nca/Resources/PolicyResources/NetworkPolicy.py
269-316, K8sNetworkPolicy.py 127-159, CalicoNetworkPolicy.py 196-277, IstioNetworkPolicy.py 144-185.

The peer sets of the rules are given by `ep`, as in `EPolicy`.  `Option`: `none` stands for an exception.
SIMPLIFICATIONS: as in `Verif.QueryModel`; the texts of issues are modelled by the data they are made of.
-/
namespace Verif

section
variable {C P E S : Type} (N : NetQ C P E S)

/-- Peer sets of the rules of a direction. -/
def EPolicy.dirPeers (e : EPolicy C S) (dir : Bool) : List (RulePeers S) := if dir then e.ingressPeers else e.egressPeers

/-! ### Conflicts -/

/-- `CalicoNetworkPolicy.has_rules_with_action` (CalicoNetworkPolicy.py 196-207); `src_peers` and
`dst_peers` of the rule are its peer sets. -/
def rulesWithAction (a : RuleAction) : List (Rule C) → List (RulePeers S) → Bool
  | r :: rs, ps :: pss => (ps.all (fun s => N.Q.truthy s) && decide (r.action = a)) || rulesWithAction a rs pss
  | _, _ => false

/-- `_rules_contain_conflicting_actions` (CalicoNetworkPolicy.py 225-237) for the rules of a direction. -/
def conflictingActions (e f : EPolicy C S) (dir : Bool) : Bool :=
  if rulesWithAction N .allow (e.pol.dirRules dir) (e.dirPeers dir) && rulesWithAction N .deny (f.pol.dirRules dir) (f.dirPeers dir) then true
  else rulesWithAction N .deny (e.pol.dirRules dir) (e.dirPeers dir) && rulesWithAction N .allow (f.pol.dirRules dir) (f.dirPeers dir)

/-- `CalicoNetworkPolicy.is_conflicting` (CalicoNetworkPolicy.py 239-260). -/
def isConflicting (e f : EPolicy C S) : Bool :=
  if e.pol.order ≠ f.pol.order then false
  else if !((e.pol.affectsIngress && f.pol.affectsIngress) || (e.pol.affectsEgress && f.pol.affectsEgress)) then false
  else if !N.Q.truthy (N.Q.and e.pol.selected f.pol.selected) then false
  else if e.pol.affectsIngress && f.pol.affectsIngress && conflictingActions N e f true then true
  else e.pol.affectsEgress && f.pol.affectsEgress && conflictingActions N e f false

/-- The loop of `has_conflicting_policies_with_same_order` (NetworkConfigQuery.py 430-447); `curr` is
`curr_set`. -/
def conflictLoop (ep : Policy C S → EPolicy C S) : List (Policy C S) → List (Policy C S) → Option (Policy C S × Policy C S)
  | _, [] => none
  | [], p :: ps => conflictLoop ep [p] ps
  | first :: curr, p :: ps =>
    if first.lt p then conflictLoop ep [p] ps
    else
      match (first :: curr).find? (fun q => isConflicting N (ep p) (ep q)) with
      | some q => some (p, q)
      | none => conflictLoop ep (first :: curr ++ [p]) ps

/-- `has_conflicting_policies_with_same_order` (NetworkConfigQuery.py 417-447): the reported pair. -/
def conflictCheck (ep : Policy C S → EPolicy C S) (c : Config C S) : Option (Policy C S × Policy C S) :=
  let calico := (layerList c.store.layers .k8sCalico).filter (fun p => decide (p.kind.cls = 1))
  if calico.length ≤ 1 then none else conflictLoop N ep [] calico

/-! ### Explanations of redundant policies -/

/-- `PeerSet.issubset`. -/
def subsetOf (a b : S) : Bool := !N.Q.truthy (N.Q.sub a b)

/-- The test in the loops of lines 460-462, 483-485 and 514-516: both orders are given and not 0, and the first
is lower. -/
def orderBefore (q p : Policy C S) : Bool :=
  match q.getOrder, p.getOrder with
  | some a, some b => decide (a ≠ 0 ∧ b ≠ 0 ∧ a < b)
  | _, _ => false

/-- `has_allow_rules`: K8sNetworkPolicy.py 127-140, CalicoNetworkPolicy.py 217-223,
IstioNetworkPolicy.py 163-173, NetworkPolicy.py 268-274. -/
def hasAllowRules (e : EPolicy C S) : Bool :=
  match e.pol.kind with
  | .k8s => e.ingressPeers.any (fun ps => ps.all (fun s => N.Q.truthy s)) || e.egressPeers.any (fun ps => ps.all (fun s => N.Q.truthy s))
  | .calico | .calicoGlobal | .calicoProfile =>
    rulesWithAction N .allow e.pol.ingressRules e.ingressPeers || rulesWithAction N .allow e.pol.egressRules e.egressPeers
  | .istioAuthz => decide (e.pol.action ≠ .deny) && e.ingressPeers.any (fun ps => ps.all (fun s => N.Q.truthy s))
  | _ => false

/-- `has_deny_rules`: CalicoNetworkPolicy.py 209-215, IstioNetworkPolicy.py 175-185,
NetworkPolicy.py 276-282. -/
def hasDenyRules (e : EPolicy C S) : Bool :=
  match e.pol.kind with
  | .calico | .calicoGlobal | .calicoProfile =>
    rulesWithAction N .deny e.pol.ingressRules e.ingressPeers || rulesWithAction N .deny e.pol.egressRules e.egressPeers
  | .istioAuthz => decide (e.pol.action ≠ .allow) && e.ingressPeers.any (fun ps => ps.all (fun s => N.Q.truthy s))
  | _ => false

/-- The loop of `other_policy_containing_allow` (NetworkConfigQuery.py 449-470); `single` is the
configuration with just `self`. -/
def allowLoop (excl : Bool) (c : Config C S) (self : Policy C S) (single : Config C S) : List (Policy C S) → Option (Option (Policy C S))
  | [] => some none
  | q :: qs =>
    if orderBefore q self then some none
    else if policyEq N q self then allowLoop excl c self single qs
    else if !subsetOf N self.selected q.selected then allowLoop excl c self single qs
    else (c.justOne q.name).bind (fun other =>
      if (containQuery N excl false true single other).bool then some (some q) else allowLoop excl c self single qs)

/-- `check_deny_containment` (NetworkConfigQuery.py 495-500). -/
def denyContained (c1 c2 : Config C S) (n : LayerName) : Bool :=
  N.K.contained (c1.conns N (some n) ConnFilter.onlyDenied).denied (c2.conns N (some n) ConnFilter.onlyDenied).denied

/-- The loop of `other_policy_containing_deny` (NetworkConfigQuery.py 472-493). -/
def denyLoop (ep : Policy C S → EPolicy C S) (c : Config C S) (n : LayerName) (self : Policy C S) (single : Config C S) :
    List (Policy C S) → Option (Option (Policy C S))
  | [] => some none
  | q :: qs =>
    if orderBefore q self then some none
    else if policyEq N q self then denyLoop ep c n self single qs
    else if !hasDenyRules N (ep q) then denyLoop ep c n self single qs
    else (c.justOne q.name).bind (fun other =>
      if denyContained N single other n then some (some q) else denyLoop ep c n self single qs)

/-- What `redundant_policy_text` says after "is redundant". -/
inductive PolicyWhy (C S : Type)
  | unexplained
  | keepsDefault
  | noRules
  | within (q : Policy C S)
  | covered (allow deny : Policy C S)

/-- `redundant_policy_text` (NetworkConfigQuery.py 553-589). -/
def policyWhy (excl : Bool) (ep : Policy C S → EPolicy C S) (c : Config C S) (n : LayerName) (p : Policy C S) : Option (PolicyWhy C S) :=
  (c.justOne p.name).bind (fun single => (vacuityQuery N excl single).bind (fun v =>
    if v then some .keepsDefault
    else
      let a := hasAllowRules N (ep p)
      let d := hasDenyRules N (ep p)
      if !d && !a then some .noRules
      else
        (if a then allowLoop N excl c p single (layerList c.store.layers n) else some none).bind (fun qa =>
          (if d && (!a || qa.isSome) then denyLoop N ep c n p single (layerList c.store.layers n) else some none).map (fun qd =>
            if (a && qa.isNone) || (d && qd.isNone) then .unexplained
            else if !d then (match qa with | some q => .within q | none => .unexplained)
            else if !a then (match qd with | some q => .within q | none => .unexplained)
            else match qa, qd with
              | some x, some y => if policyEq N y x then .within x else .covered x y
              | _, _ => .unexplained))))

/-! ### Explanations of redundant rules -/

/-- The loop of `K8sNetworkPolicy.rule_containing` and `IstioNetworkPolicy.rule_containing`
(K8sNetworkPolicy.py 154-159, IstioNetworkPolicy.py 156-161): the first rule, from number `k`, that
contains `r`; rule number `i` is skipped if `same`. -/
def skipLoop (same : Bool) (i : Nat) (r : Rule C) : Nat → List (Rule C) → Option Nat
  | _, [] => none
  | k, s :: ss =>
    if decide (k = i) && same then skipLoop same i r (k + 1) ss
    else if N.K.contained r.props s.props then some k
    else skipLoop same i r (k + 1) ss

/-- The loop of `CalicoNetworkPolicy.rule_containing` (CalicoNetworkPolicy.py 272-277), which ends at
rule number `i` if `same`. -/
def stopLoop (same : Bool) (i : Nat) (r : Rule C) : Nat → List (Rule C) → Option (Nat × Rule C)
  | _, [] => none
  | k, s :: ss =>
    if decide (k = i) && same then none
    else if N.K.contained r.props s.props then some (k, s)
    else stopLoop same i r (k + 1) ss

/-- `rule_containing` of the policy `q` for rule number `i`, `r`, of the policy `p`: the number of the
containing rule and whether the actions differ.  Rules of Kubernetes policies have no attribute `action`
(K8sNetworkPolicy.py 10-35), so that line 276 of CalicoNetworkPolicy.py raises an exception for them.
Sidecars return index 0 (NetworkPolicy.py 284-295), which the caller takes for no rule. -/
def ruleContaining (q p : Policy C S) (dir : Bool) (i : Nat) (r : Rule C) : Option (Option (Nat × Bool)) :=
  match q.kind with
  | .k8s =>
    if !subsetOf N p.selected q.selected then some none
    else some ((skipLoop N (policyEq N q p) i r 1 (q.dirRules dir)).map (fun k => (k, false)))
  | .calico | .calicoGlobal | .calicoProfile =>
    match stopLoop N (policyEq N q p) i r 1 (q.dirRules dir) with
    | none => some none
    | some ks => if p.kind = .k8s then none else some (some (ks.1, decide (ks.2.action ≠ r.action)))
  | .istioAuthz =>
    if !subsetOf N p.selected q.selected then some none
    else some ((skipLoop N (policyEq N q p) i r 1 (q.dirRules dir)).map (fun k => (k, decide (q.action ≠ p.action))))
  | _ => some none

/-- The loop of `other_rule_containing` (NetworkConfigQuery.py 502-523): the policy, the number of the
rule, whether it contradicts. -/
def containLoop (p : Policy C S) (dir : Bool) (i : Nat) (r : Rule C) : List (Policy C S) → Option (Option (Policy C S × Nat × Bool))
  | [] => some none
  | q :: qs =>
    if orderBefore q p then some none
    else (ruleContaining N q p dir i r).bind (fun f =>
      match f with
      | some kb => some (some (q, kb))
      | none => containLoop p dir i r qs)

/-- `redundant_rule_text` (NetworkConfigQuery.py 525-551) for rule number `i` (from 1). -/
def ruleWhy (c : Config C S) (n : LayerName) (p : Policy C S) (dir : Bool) (i : Nat) : Option (Option (Policy C S × Nat × Bool)) :=
  ((p.dirRules dir)[i - 1]?).bind (fun r => containLoop N p dir i r (layerList c.store.layers n))

/-! ### The query -/

/-- An issue in the text of the answer. -/
inductive Issue (C S : Type)
  /-- The configuration allows what is allowed without policies. -/
  | vacuous
  /-- The policy selects nobody. -/
  | emptyPolicy (p : Policy C S)
  /-- Rule number `i` selects nobody. -/
  | emptyRule (p : Policy C S) (dir : Bool) (i : Nat)
  /-- The policy is redundant. -/
  | redundantPolicy (p : Policy C S) (why : PolicyWhy C S)
  /-- Rule number `i` is redundant. -/
  | redundantRule (p : Policy C S) (dir : Bool) (i : Nat) (why : Option (Policy C S × Nat × Bool))

/-- The issues of the rules of a direction (NetworkConfigQuery.py 646-653, 654-661). -/
def ruleIssues (c : Config C S) (n : LayerName) (p : Policy C S) (dir : Bool) (empty red : List Nat) : Option (List (Issue C S)) :=
  (((List.range (p.dirRules dir).length).map (· + 1)).filter (fun i => !empty.contains i && red.contains i)).mapM
    (fun i => (ruleWhy N c n p dir i).map (Issue.redundantRule p dir i))

/-- The body of the inner loop of `exec` (NetworkConfigQuery.py 620-661); `red` are the redundant
policies of the layer. -/
def policyIssues (excl : Bool) (ep : Policy C S → EPolicy C S) (c : Config C S) (vac : Bool) (n : LayerName) (red : List String)
    (p : Policy C S) : Option (List (Issue C S)) :=
  if !N.Q.truthy p.selected then some [.emptyPolicy p]
  else
    let em := hasEmptyRules N (ep p)
    let es := em.1.map (Issue.emptyRule p true) ++ em.2.map (Issue.emptyRule p false)
    if vac then some es
    else if red.contains p.name then (policyWhy N excl ep c n p).map (fun w => es ++ [.redundantPolicy p w])
    else
      (redundantRules N excl c n p true).bind (fun ri => (redundantRules N excl c n p false).bind (fun re =>
        (ruleIssues N c n p true em.1 ri).bind (fun is => (ruleIssues N c n p false em.2 re).map (fun js => es ++ is ++ js))))

/-- The body of the outer loop of `exec` (NetworkConfigQuery.py 611-661). -/
def layerIssues (excl : Bool) (ep : Policy C S → EPolicy C S) (c : Config C S) (vac : Bool) (l : LayerName × List (Policy C S)) : Option (List (Issue C S)) :=
  if l.1 = .k8sGateway ∨ l.1 = .istioGateway then some []
  else (redundantPolicies N excl c l.2 l.1).bind (fun red =>
    (l.2.mapM (policyIssues N excl ep c vac l.1 red)).map List.flatten)

/-- The answer: `bool_result`, `numerical_result`, the conflict of the result text and the issues of the
explanation. -/
structure SanityAnswer (C S : Type) where
  bool : Bool
  num : Nat
  conflict : Option (Policy C S × Policy C S)
  issues : List (Issue C S)

/-- `SanityQuery.exec` (NetworkConfigQuery.py 591-670); a configuration without policies is falsy
(NetworkConfig.py 71-72). -/
def sanityQuery (excl : Bool) (ep : Policy C S → EPolicy C S) (c : Config C S) : Option (SanityAnswer C S) :=
  if c.store.policies.isEmpty then some ⟨false, 0, none, []⟩
  else
    match conflictCheck N ep c with
    | some x => some ⟨false, 1, some x, []⟩
    | none =>
      (vacuityQuery N excl c).bind (fun vac =>
        (c.store.layers.mapM (layerIssues N excl ep c vac)).map (fun iss =>
          let all := (if vac then [Issue.vacuous] else []) ++ iss.flatten
          ⟨decide (all.length = 0), all.length, none, all⟩))

end

end Verif
