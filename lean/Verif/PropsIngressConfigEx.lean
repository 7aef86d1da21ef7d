import Verif.PropsIngressConfig
import Verif.PropsIngressEx
import Verif.PropsIstioConfigEx
/-!
C54: examples.
-/
namespace Verif
open ISet PeerSet

namespace IngressParser
open Container CalicoParser IstioParser

namespace CfgEx
open K8sParser (nsDefault)
open K8sParser.Ex (cl reg podA podB)
open CalicoParser.CfgEx (cluster A D domain mixed_says at_src at_dst)
open IstioParser.CfgEx (items items_tame means docs_net docs_istio auth_tame istio_says)
open IstioParser.Ex (elemA elemB env icluster LA LW LL req raw pt isRequest)
open IngressParser.Ex (ing ing_tame svcs svcs_tame ingressLib lang3 pPing pPing_tame bDb'_tame hostX hostX_legal says_x x_tame info_wins bDb_is ctl picks_ctl)

/-- Only `x.com/ping`. -/
def pingOnly : IngressText where
  ns := nsDefault
  defaultBackend := none
  rules := [⟨some hostX, some (some [pPing])⟩]

theorem ping_tame : pingOnly.Tame cl svcs where
  ns := by decide
  rules := fun r hr => by
    simp only [pingOnly, List.mem_singleton] at hr
    subst hr
    refine ⟨fun h e => (by cases e; exact hostX_legal), by simp, by simp, fun p hp => ?_, by simp [IngressRule.paths]⟩
    simp only [IngressRule.paths, Option.getD_some, List.mem_singleton] at hp
    subst hp
    exact ⟨pPing_tame, bDb'_tame⟩
  dflt := fun b hb => by cases hb
  rest := fun b hb => by cases hb

theorem ping_host : HostTame pingOnly hostX where
  one := by simp [pingOnly]
  label := fun r hr s hs => by
    simp only [pingOnly, List.mem_singleton] at hr
    subst hr
    have : '*' ∈ hostX := by rw [Option.some.inj hs]; simp
    exact absurd this (by decide)

/-- The policies of the example of C51, and one or two Ingress resources. -/
def docs (d : Bool) : List CfgDoc :=
  (IstioParser.CfgEx.docs false).map CfgDoc.policy ++ [.ingress "ping" pingOnly] ++ if d then [.ingress "all" ing] else []

theorem docs_policy (d : Bool) : (docs d).filterMap CfgDoc.policy? = IstioParser.CfgEx.docs false := by cases d <;> rfl
theorem docs_ingress (d : Bool) : (docs d).filterMap CfgDoc.ingress? = pingOnly :: if d then [ing] else [] := by cases d <;> rfl

theorem ing_all (d : Bool) : ∀ t ∈ (docs d).filterMap CfgDoc.ingress?, t.Tame cl svcs ∧ HostTame t hostX := by
  rw [docs_ingress]
  intro t ht
  cases d
  · rw [List.mem_singleton.1 ht]; exact ⟨ping_tame, ping_host⟩
  · simp only [if_true, List.mem_cons, List.not_mem_nil, or_false] at ht
    rcases ht with rfl | rfl
    · exact ⟨ping_tame, ping_host⟩
    · exact ⟨ing_tame, x_tame⟩

/-- The controller may send the request exactly if the second Ingress resource is there. -/
theorem gateway_says (d : Bool) : GatewaySays reg cl svcs (pingOnly :: if d then [ing] else []) A D req ↔ d = true := by
  constructor
  · intro h
    cases d
    · obtain ⟨_, t, ht, h⟩ := h ⟨ctl, by simp [svcs], by decide, picks_ctl⟩
      rw [List.mem_singleton.1 ht] at h
      rcases h with ⟨r, hr, _, p, ⟨hp, hs, _⟩, _⟩ | ⟨_, b, hb, _⟩
      · simp only [pingOnly, List.mem_singleton] at hr
        subst hr
        simp only [IngressRule.paths, Option.getD_some, List.mem_singleton] at hp
        subst hp
        exact absurd (show pPing.path = some "/info/1".toList from hs) (by decide)
      · cases hb
    · rfl
  · rintro rfl _
    exact ⟨rfl, ing, by simp, Or.inl ⟨_, List.mem_cons_self, says_x, _, info_wins, bDb_is⟩⟩

/-- Non-vacuity of C54: the program answers that the request is allowed exactly if the second Ingress resource is there. -/
example (ord : SetOrder) (d : Bool) : ∃ (B : PeerDom) (S : _) (pols : _) (st : _), K8sParser.queryDom reg [cl] = some B.idx ∧
    services reg cl svcs = some S ∧
    cfgPolicies asc LA LW lang3 env B ord reg cl S nsDefault (docs d) = some pols ∧ PolicyStore.build (loadOrder pols) = some st ∧
    ∃ p : Point (connA LA B), p.1 = raw ∧ (connNet LL B).K.mem p
      (configConns (connNet LL B).toNet (calicoPeers LA LW B reg cl) st.layers ⟨false, false, true, true⟩).allAllowed = d := by
  obtain ⟨B, hd, hB⟩ := domain
  have hm : List.Forall₂ (Doc.Means asc nsDefault) (((docs d).filterMap CfgDoc.policy?).filterMap AnyDoc.net?) items := by
    rw [docs_policy]; exact means false
  have hau : ∀ t ∈ ((docs d).filterMap CfgDoc.policy?).filterMap AnyDoc.istio?, t.Tame A := by
    rw [docs_policy]; exact auth_tame false A
  obtain ⟨S, pols, st, h0, h1, h2⟩ := (C54_accepted_partial (B := B) (ord := ord) LL asc_ok cluster icluster ingressLib svcs_tame hm items_tame
    (fun t ht => ⟨A, hau t ht⟩) (fun t ht => (ing_all d t ht).1)).2 ⟨fun t h s hs => (by
      have : t = K8sParser.Ex.text := by cases d <;> simpa [docs, IstioParser.CfgEx.docs] using h
      subst this; cases hs
      exact (K8sParser.C44_accepted NamedEx.L2 K8sParser.Ex.cluster nsDefault K8sParser.Ex.spec).1 (K8sParser.Ex.accepted ord)), (by
      cases d <;> simp [docs, IstioParser.CfgEx.docs, CfgDoc.key, AnyDoc.key, Doc.key, CalicoParser.CfgEx.simple, IstioParser.Ex.text, ing, pingOnly])⟩
  let p : Point (connA LA B) := pt.toDom (fun z hz => by cases hz; exact hB _ A at_src) (fun z hz => by cases hz; exact hB _ D at_dst)
  refine ⟨B, S, pols, st, hd, h0, h1, h2, p, rfl, ?_⟩
  have hr : IsRequest String.toList reg cl p A D req := ⟨isRequest.src, isRequest.dst, rfl, rfl, isRequest.method, isRequest.host, isRequest.path⟩
  have hc : IsConn reg cl p A D ⟨6, 1, 80, 0, 0⟩ := ⟨isRequest.src, isRequest.dst, rfl, rfl, rfl, rfl, rfl⟩
  have hpa : IsKind cl A [.pod] := ⟨podA, by simp [cl], elemA, by simp [podA, K8sParser.exPod]⟩
  have hnd : ¬ IsKind cl D [.dns] := by
    rintro ⟨a, ha, _, hk⟩
    simp only [cl, List.mem_cons, List.not_mem_nil, or_false] at ha hk
    rcases ha with rfl | rfl <;> simp [podA, podB, K8sParser.exPod] at hk
  rw [Bool.eq_iff_iff, C54_config_partial LL asc_ok cluster icluster ingressLib hB svcs_tame h0 hm items_tame hau (fun t ht => (ing_all d t ht).1) h1 h2 _ rfl p _ hc req hr
    (fun t ht => (ing_all d t ht).2) (Or.inl hpa) (fun h => absurd h hnd), docs_policy, docs_istio, istio_says, items, mixed_says, docs_ingress, gateway_says]
  constructor
  · rintro ⟨_, h⟩
    exact h (by simp)
  · intro h
    exact ⟨⟨by decide, fun _ => ⟨⟨podA, by simp [cl], elemA, by simp [podA, K8sParser.exPod]⟩, fun h => absurd h hnd, fun _ => rfl⟩⟩, fun _ => h⟩

end CfgEx
end IngressParser
end Verif
