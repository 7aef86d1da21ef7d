import Verif.QueryLaws
/-!
Meaning of the queries on configurations, in terms of `configAllows` (which says, connection by
connection, what a configuration allows), and the configurations the theorems are about.
-/
namespace Verif

section
variable {C P E S : Type} (N : NetQ C P E S)

/-- The peers of a configuration: pods, host endpoints, DNS entries and IP addresses are different
things, all addresses are known, and there are a workload, an address and an IPv6 address among the
sources, and connections between addresses both with and without TCP. -/
structure World (t : Peers S) : Prop where
  ips : ∀ e, N.Q.mem e t.ips = true ↔ N.ip e = true
  pods : ∀ e, N.Q.mem e t.pods = true → N.ip e = false ∧ N.Q.mem e t.dns = false
  heps : ∀ e, N.Q.mem e t.heps = true → N.ip e = false ∧ N.Q.mem e t.dns = false
  dns : ∀ e, N.Q.mem e t.dns = true → N.ip e = false
  work : ∃ p, t.workload N.toNet (N.src p)
  ext : ∃ p, N.ip (N.src p) = true ∧ N.ip (N.dst p) = true ∧ N.isTcp p = false
  six : ∃ p, N.Q.mem (N.src p) N.v6 = true
  extTcp : ∃ p, N.ip (N.src p) = true ∧ N.ip (N.dst p) = true ∧ N.isTcp p = true

/-- Configurations as built by the loader.
`within`: rules speak of known peers; `selects`: policies select workloads; `dns`: excludes the case of
`C26_dns_default_lost`. -/
structure Config.Good (Ok Strong : C → Prop) (c : Config C S) : Prop where
  built : PolicyStore.build c.store.policies = some c.store
  legal : LegalPolicies N.toNet Ok Strong c.store.policies
  world : World N c.peers
  within : ∀ pol ∈ c.store.policies, ∀ dir, ∀ r ∈ pol.rules dir, ∀ p, N.K.mem p r.props = true →
    c.peers.known N.toNet (N.src p) ∧ c.peers.known N.toNet (N.dst p)
  selects : ∀ pol ∈ c.store.policies, ∀ e, N.Q.mem e pol.selected = true → c.peers.workload N.toNet e
  dns : ∀ n p, DnsOk N.toNet n (layerList c.store.layers n) c.peers p

/-- What a configuration allows. -/
def Config.allows (c : Config C S) (p : P) : Prop := configAllows N.toNet c.peers c.store.layers p

/-- What a configuration, or one of its layers, allows. -/
def Config.allowsIn (c : Config C S) (layer : Option LayerName) (p : P) : Prop :=
  match layer with
  | none => c.allows N p
  | some n => layerAllows N.toNet n (layerList c.store.layers n) c.peers p

/-- What a configuration explicitly allows: it allows it, and some policy decides to. -/
def Config.explicit (c : Config C S) (p : P) : Prop := c.allows N p ∧ configDecides N.toNet c.peers c.store.layers p

/-- The connections queries are about: not from addresses to addresses or DNS entries, not from DNS
entries and, if `excl`, not with IPv6 addresses. -/
def Relevant (t : Peers S) (excl : Bool) (p : P) : Prop :=
  ¬ (N.ip (N.src p) = true ∧ (N.ip (N.dst p) = true ∨ N.Q.mem (N.dst p) t.dns = true)) ∧
  N.Q.mem (N.src p) t.dns = false ∧
  (excl = true → N.Q.mem (N.src p) N.v6 = false ∧ N.Q.mem (N.dst p) N.v6 = false)

/-- The configuration allows some connection, or has a single layer.  Excludes the case of
`C31_empty_wrong`. -/
def Config.Solid (c : Config C S) : Prop :=
  (∃ p, c.allows N p) ∨ (effectiveLayers N.toNet c.peers c.store.layers).length ≤ 1

end
end Verif
