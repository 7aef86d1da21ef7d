import Verif.TopologyModel
import Verif.CalicoParseModel
/-!
Model of the way from the documents of the input to the policies that are parsed: the kind of a document
(nca/Resources/PolicyResources/NetworkPolicy.py 221-263), the parse queue (nca/NetworkConfig/PoliciesFinder.py 34-43 and
68-160), the check of `apiVersion` (nca/Parsers/GenericYamlParser.py 133-163), and Calico profiles
(nca/Parsers/CalicoPolicyYamlParser.py 532-656 for profiles, nca/NetworkConfig/PeerContainer.py 82-84 and 284-300,
nca/CoreDS/Peer.py 24-44 and 95-111).

Not modelled: files and directories (the documents are given in the order in which they are read,
ResourcesHandler.py 387-419), live clusters, explanations, the checks of field names and types, warnings, and what becomes
of the documents that are no profiles: they are recorded together with the peers as they are when the document is parsed.
`none` is a reported error.
-/
namespace Verif
open ISet

namespace PolicyDocs
open Container Topology CalicoParser

/-- `PolicyType` (NetworkPolicy.py 17-32), without `GatewayPolicy`, which no document has. -/
inductive PType where
  | unknown | k8s | calico | calicoGlobal | calicoProfile | istioAuthz | istioSidecar | ingress | gateway | virtualService | list
  deriving DecidableEq

/-- Python's `s in t` for texts. -/
def hasSub (s t : String) : Bool := decide (s.toList <:+: t.toList)

/-- `get_policy_type_from_dict` (NetworkPolicy.py 221-263); fields that are absent or no texts are `none`. -/
def policyType : Option String → Option String → PType
  | some kind, some api =>
    if kind = "" ∨ api = "" then .unknown
    else if "List".toList <:+ kind.toList then .list
    else if hasSub "calico" api then
      if kind = "Profile" then .calicoProfile
      else if kind = "NetworkPolicy" then .calico
      else if kind = "GlobalNetworkPolicy" then .calicoGlobal
      else .unknown
    else if hasSub "istio" api then
      if kind = "AuthorizationPolicy" then .istioAuthz
      else if kind = "Sidecar" then .istioSidecar
      else if kind = "Gateway" then .gateway
      else if kind = "VirtualService" then .virtualService
      else .unknown
    else if kind = "NetworkPolicy" then .k8s
    else if kind = "Ingress" then .ingress
    else .unknown
  | _, _ => .unknown

/-- A Calico profile: its name, `labelsToApply`, and the fields it has in common with policies. -/
structure ProfileText where
  name : String
  labels : Labels
  text : CalicoText

/-- What a document says, apart from its kind: a profile, or something else. -/
inductive Body (δ : Type) where
  | profile (t : ProfileText)
  | policy (d : δ)

/-- A document as `yaml` gives it: a map, or something else. -/
inductive Yaml (δ : Type) where
  | other
  | map (kind api : Option String) (items : List (Yaml δ)) (body : Body δ)

/-- An element of `_parse_queue` (PoliciesFinder.py 29). -/
structure Entry (δ : Type) where
  type : PType
  api : String
  body : Body δ

section
variable {δ : Type}

mutual
/-- `parse_yaml_code_for_policy` (PoliciesFinder.py 140-150); `q` is the queue. -/
def Yaml.enqueue (q : List (Entry δ)) : Yaml δ → List (Entry δ)
  | .other => q
  | .map kind api items body =>
    match policyType kind api with
    | .unknown => q
    | .list => Yaml.enqueueAll q items
    | .calicoProfile => ⟨.calicoProfile, api.getD "", body⟩ :: q
    | t => q ++ [⟨t, api.getD "", body⟩]

/-- `_add_policies_to_parse_queue` (PoliciesFinder.py 152-154), and the loop over all documents (ResourcesHandler.py 405-417). -/
def Yaml.enqueueAll (q : List (Entry δ)) : List (Yaml δ) → List (Entry δ)
  | [] => q
  | y :: ys => Yaml.enqueueAll (y.enqueue q) ys
end

/-- The check of `apiVersion` in `parse_generic_yaml_objects_fields` (GenericYamlParser.py 151-159): `some false` if the
document is ignored. -/
def checkApi (keywords versions : List String) (api : String) : Option Bool :=
  if keywords.any fun k => hasSub k api then (if api ∈ versions then some true else none) else some false

/-- The same as the parsers call it (CalicoPolicyYamlParser.py 617-620, K8sPolicyYamlParser.py 383-387,
IstioPolicyYamlParser.py 542-546, IstioSidecarYamlParser.py 208-212, IngressPolicyYamlParser.py 251-254,
IstioGatewayYamlParser.py 59-63, IstioVirtualServiceYamlParser.py 43-47). -/
def gate : PType → String → Option Bool
  | .k8s => checkApi ["k8s", "extensions"] ["networking.k8s.io/v1", "extensions/v1beta1"]
  | .calico | .calicoGlobal | .calicoProfile => checkApi ["calico"] ["projectcalico.org/v3"]
  | .istioAuthz => checkApi ["istio"] ["security.istio.io/v1beta1", "security.istio.io/v1"]
  | .istioSidecar | .gateway | .virtualService => checkApi ["istio"] ["networking.istio.io/v1alpha3", "networking.istio.io/v1beta1"]
  | .ingress => checkApi ["k8s"] ["networking.k8s.io/v1"]
  | .unknown | .list => fun _ => some false

/-! ### Profiles -/

/-- `get_profile_pods` (PeerContainer.py 284-300). -/
def profilePods (objs : List PeerObj) (name : String) (first : Bool) : List PeerObj :=
  objs.filter fun o => !o.profiles.isEmpty && if first then decide (o.profiles.head? = some name) else decide (name ∈ o.profiles)

/-- `set_extra_label` (Peer.py 36-43). -/
def setExtra (e : Labels) (k v : String) : Labels := (k, v) :: e.filter fun kv => !decide (kv.1 = k)

/-- A peer object with other labels of profiles. -/
def withExtra (o : PeerObj) (e : Labels) : PeerObj := { o with info := { o.info with extra := e } }

/-- `clear_pods_extra_labels` (PeerContainer.py 82-84, Peer.py 45-46). -/
def clearExtra (objs : List PeerObj) : List PeerObj := objs.map fun o => withExtra o []

/-- `_apply_extra_labels` (CalicoPolicyYamlParser.py 532-550): the objects are changed in place. -/
def applyLabels (objs : List PeerObj) (name : String) (labels : Labels) : List PeerObj :=
  objs.map fun o => if !o.profiles.isEmpty && decide (name ∈ o.profiles) then withExtra o (labels.foldl (fun e kv => setExtra e kv.1 kv.2) o.info.extra) else o

section
variable {V2 X2 : Type} (K : CharCls) (A2 : VAlg Dim V2 X2) (B : PeerDom) (ord : SetOrder) (rg : PodReg)

/-- `parse_policy` for a profile (CalicoPolicyYamlParser.py 610-656 with 552-608): the rules are parsed, and what comes out is
dropped (PoliciesFinder.py 74-77). -/
def parseProfile (objs : List PeerObj) (t : ProfileText) : Option (List PeerObj) :=
  if t.text.nsSelector.isSome then none
  else if !t.text.types.all (fun s => decide (s ∈ ["Egress", "Ingress"])) then none
  else if !affectsIngress t.text && t.text.ingress.isSome then none
  else if !affectsEgress t.text && t.text.egress.isSome then none
  else if (given t.text.selector).isSome then none
  else if (t.text.order.getD 0) ≠ 0 then none
  else do
    let c : Container := objs.map PeerObj.info
    let selected : PeerSet String := (profilePods objs t.name true).map fun o => o.info.elem
    let _ ← (t.text.ingress.getD []).mapM (parseRule K c t.text.ns A2 B ord rg true selected)
    let _ ← (t.text.egress.getD []).mapM (parseRule K c t.text.ns A2 B ord rg false selected)
    return applyLabels objs t.name t.labels

/-- The peers, and the documents that were parsed with the peers as they were then. -/
structure State (δ : Type) where
  objs : List PeerObj
  done : List (δ × Container)

/-- The body of the loop of `parse_policies_in_parse_queue` (PoliciesFinder.py 72-108).  `fits`: the document has the form of
its kind. -/
def parseOne (fits : PType → δ → Bool) (s : State δ) (e : Entry δ) : Option (State δ) :=
  (gate e.type e.api).bind fun g =>
    if g then
      match e.type, e.body with
      | .calicoProfile, .profile t => (parseProfile K A2 B ord rg s.objs t).map fun objs => { s with objs := objs }
      | .calicoProfile, .policy _ => none
      | _, .profile _ => none
      | t, .policy d => if fits t d then some { s with done := s.done ++ [(d, s.objs.map PeerObj.info)] } else none
    else some s

/-- The reading of all policies: `set_peer_container` (PoliciesFinder.py 37-43), the queue, and its parsing
(ResourcesHandler.py 324-352, 387-419). -/
def readDocs (fits : PType → δ → Bool) (objs : List PeerObj) (docs : List (Yaml δ)) : Option (State δ) :=
  (Yaml.enqueueAll [] docs).foldlM (parseOne K A2 B ord rg fits) ⟨clearExtra objs, []⟩

end
end
end PolicyDocs
end Verif
