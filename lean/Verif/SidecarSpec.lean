import Verif.SidecarModel
import Verif.IngressSpec
/-!
Specification of Istio's Sidecar resources, from its reference ("Sidecar"): which of them is the one of a workload, and
what it lets the workload reach.  It mentions no sets of peers and no connection sets.

As the code, it takes a workload with an egress configuration to reach nothing else, and DNS entries (the hosts of
ServiceEntry resources) to be visible in all namespaces.
-/
namespace Verif
namespace SidecarParser
open Container CalicoParser IstioParser IngressParser

/-! ### The sidecar of a workload -/

/-- The Sidecar can be the one of the workload: a pod of its namespace (for the root namespace, of any) that the selector
chooses. -/
def SidecarText.Applies (c : Container) (t : SidecarText) (E : Place) : Prop := AuthApplies c t.ns t.selector E

/-- Sidecars with a selector come before those of a namespace, and these before those of the root namespace. -/
def SidecarText.rank (t : SidecarText) : Nat :=
  match t.selector with
  | .absent => if t.ns.name = "istio-config" then 0 else 1
  | _ => 2

/-- The Sidecar of the workload, among those of the configuration. -/
def Governs (c : Container) (ts : List SidecarText) (t : SidecarText) (E : Place) : Prop :=
  t ∈ ts ∧ t.Applies c E ∧ ∀ t' ∈ ts, t'.Applies c E → t'.rank ≤ t.rank

/-! ### Hosts -/

/-- The host is written as namespace and name. -/
def HostIs (h ns d : List Char) : Prop := h = ns ++ '/' :: d ∧ '/' ∉ ns ∧ '/' ∉ d ∧ ns ≠ [] ∧ d ≠ []

/-- The first part of a host stands for the namespace, for a workload of the namespace `own`. -/
def NsSays (own : List Char) (ns n : List Char) : Prop := ns = ['*'] ∨ ns = ['.'] ∧ n = own ∨ ns = n ∧ ns ≠ ['.'] ∧ ns ≠ ['~']

/-- The second part of a host stands for the name: all names, one name, or those with an end. -/
def NameSays (d w : List Char) : Prop := d = ['*'] ∨ '*' ∉ d ∧ d = w ∨ ∃ s u, d = '*' :: '.' :: s ∧ u ≠ [] ∧ w = u ++ '.' :: s

/-- The name of a service. -/
def svcName (s : SvcText) : List Char := s.name.toList ++ '.' :: (s.ns.name.toList ++ '.' :: "svc.cluster.local".toList)

/-- The place is the DNS entry of the name. -/
def IsDns (c : Container) (E : Place) (w : List Char) : Prop := AtSome c E fun p => p.kind = .dns ∧ ∃ k, p.elem = .pod k ∧ k.toList = w

/-- The host makes the place visible for a workload of the namespace `own`: it is a pod of a service, or a DNS entry. -/
def Exposes (c : Container) (l : List SvcText) (own h : List Char) (E : Place) : Prop :=
  ∃ ns d, HostIs h ns d ∧
    ((∃ s ∈ l, NsSays own ns s.ns.name.toList ∧ NameSays d (svcName s) ∧ Picks c s E) ∨ ns ≠ ['~'] ∧ ∃ w, IsDns c E w ∧ NameSays d w)

/-- The place is in the namespace. -/
def InSpace (c : Container) (E : Place) (n : List Char) : Prop := AtSome c E fun p => ∃ m, p.ns = some m ∧ m.name.toList = n

/-- The Sidecar restricts its workloads: it has egress listeners. -/
def SidecarText.Restricts (t : SidecarText) : Prop := ∃ l, t.egress = some l ∧ l ≠ []

/-- The Sidecar lets its workload `src` reach `dst`: an address, unless only known services can be reached, or what a host
of a listener makes visible. -/
def SidecarText.Reaches (c : Container) (l : List SvcText) (t : SidecarText) (src dst : Place) : Prop :=
  (t.mode ≠ some "REGISTRY_ONLY" ∧ ∃ x, dst = .ip x) ∨
  ∃ r, t.egress = some r ∧ ∃ hosts ∈ r, ∃ h ∈ hosts, ∃ own, InSpace c src own ∧ Exposes c l own h dst

/-- The sidecars of the configuration let `src` reach `dst`. -/
def SidecarsSay (c : Container) (l : List SvcText) (ts : List SidecarText) (src dst : Place) : Prop :=
  ∀ t, Governs c ts t src → t.Restricts → t.Reaches c l src dst

/-! ### Legal texts, and those that the code reads wrongly -/

/-- A label of a name. -/
def Label (s : List Char) : Prop :=
  (∃ a, s.head? = some a ∧ a.isAlphanum = true) ∧ (∃ a, s.getLast? = some a ∧ a.isAlphanum = true) ∧ ∀ a ∈ s, a.isAlphanum = true ∨ a = '-'

/-- Labels with dots between them. -/
inductive Dotted : List Char → Prop
  | one {s} : Label s → Dotted s
  | more {s t} : Label s → Dotted t → Dotted (s ++ '.' :: t)

/-- A legal name: at least two labels, and at most 254 characters. -/
def LegalName (s : List Char) : Prop := Dotted s ∧ '.' ∈ s ∧ s.length ≤ 254

/-- A legal second part of a host. -/
def LegalDns (d : List Char) : Prop := d = ['*'] ∨ LegalName d ∨ ∃ s, d = '*' :: '.' :: s ∧ LegalName s

/-- A legal host. -/
def LegalHost (h : List Char) : Prop :=
  ∃ ns d, HostIs h ns d ∧ LegalDns d ∧ (ns = ['*'] ∨ ns = ['.'] ∨ ns = ['~'] ∨ ∀ a ∈ ns, a ≠ '*' ∧ a ≠ '.' ∧ a ≠ '~')

/-- The second part of the host is one that the code reads as Istio does, for the namespaces `N` that the first part
stands for: not the name of a service of a namespace other than that of its services of this name (`C57_domain_wrong`);
with a wildcard before `svc.cluster.local`, or before the name of a namespace, only if there are no DNS entries
(`C57_wildcard_dns_wrong`); other wildcards cover no names of services (`C57_short_wildcard_wrong`). -/
inductive DnsTame (c : Container) (l : List SvcText) (N : List Char → Prop) : List Char → Prop
  | all : DnsTame c l N ['*']
  | service {name n : List Char} : '.' ∉ name → '*' ∉ name → '*' ∉ n → (∀ s ∈ l, s.name.toList = name → N s.ns.name.toList → s.ns.name.toList = n) →
      DnsTame c l N (name ++ '.' :: (n ++ '.' :: "svc.cluster.local".toList))
  | services : (∀ p ∈ c, p.kind ≠ .dns) → DnsTame c l N ('*' :: '.' :: "svc.cluster.local".toList)
  | ofNs {n : List Char} : (∀ p ∈ c, p.kind ≠ .dns) → '.' ∉ n → (∀ s ∈ l, N s.ns.name.toList → s.ns.name.toList = n) →
      DnsTame c l N ('*' :: '.' :: (n ++ '.' :: "svc.cluster.local".toList))
  | external {d : List Char} : ¬ "svc.cluster.local".toList <:+: d → (∀ s, d = '*' :: '.' :: s → ¬ s <:+ "svc.cluster.local".toList) → DnsTame c l N d

/-- The Sidecar is legal. -/
structure SidecarText.Legal (t : SidecarText) : Prop where
  labels : ∀ s, t.selector = .labels s → s ≠ []
  root : t.ns.name = "istio-config" → t.selector = .absent
  mode : t.mode = none ∨ t.mode = some "ALLOW_ANY" ∨ t.mode = some "REGISTRY_ONLY"
  hosts : ∀ r, t.egress = some r → ∀ hosts ∈ r, hosts ≠ [] ∧ ∀ h ∈ hosts, LegalHost h

/-- The Sidecar is one that the code reads as Istio does: the list of listeners is absent or not empty
(`C57_no_listeners_wrong`), and so are its hosts for its workloads. -/
structure SidecarText.Tame (c : Container) (l : List SvcText) (t : SidecarText) : Prop extends t.Legal where
  given : t.egress ≠ some []
  names : ∀ r, t.egress = some r → ∀ hosts ∈ r, ∀ h ∈ hosts, ∀ src own, t.Applies c src → InSpace c src own →
    ∀ ns d, HostIs h ns d → DnsTame c l (NsSays own ns) d

/-- No two Sidecars without selectors are in one namespace, and no two with selectors apply to one place. -/
def NoConflict (c : Container) (ts : List SidecarText) : Prop :=
  ts.Pairwise fun t t' => (t.selector = .absent → t'.selector = .absent → t.ns.name ≠ t'.ns.name) ∧
    (t.selector ≠ .absent → t'.selector ≠ .absent → ∀ E, ¬ (t.Applies c E ∧ t'.Applies c E))

/-- The cluster: the names of services and namespaces have no dots and stars, and DNS entries have legal names, without
wildcards (`C57_entry_wildcard_wrong`), that are not those of services. -/
structure Named (c : Container) (l : List SvcText) : Prop where
  svcs : ∀ s ∈ l, s.name.toList ≠ [] ∧ '.' ∉ s.name.toList ∧ '.' ∉ s.ns.name.toList ∧ '*' ∉ s.ns.name.toList ∧ s.ns.name.toList ≠ [] ∧ '~' ∉ s.ns.name.toList
  dns : ∀ p ∈ c, p.kind = .dns → ∀ k, p.elem = .pod k → Dotted k.toList ∧ ¬ "svc.cluster.local".toList <:+: k.toList

end SidecarParser
end Verif
