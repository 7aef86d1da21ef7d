import Verif.PropsIstioConfig
import Verif.PropsIstioParseEx
import Verif.PropsCalicoConfigEx
/-!
C51: examples.
-/
namespace Verif
open ISet PeerSet

namespace IstioParser
open Container CalicoParser

namespace CfgEx
open K8sParser (nsDefault)
open K8sParser.Ex (cl reg podA podB)
open CalicoParser.CfgEx (cluster A D simple simpleM domain mixed_says simple_means simple_tame at_src at_dst)
open IstioParser.Ex (anyOp spec rule1 rule2 rule1_tame rule2_tame rule1_says one nothing among_no apart_no among_one elemA elemB env icluster dfaLib LA LW LL lang req raw pt isRequest)

/-- No `GET` requests. -/
def noGet : AuthText := ⟨nsDefault, some ⟨some "DENY", .labels [("app", "db")], [⟨none, some [{ anyOp with methods := some ["GET".toList] }], none⟩]⟩⟩

theorem text_tame (E : Place) : IstioParser.Ex.text.Tame E where
  given := by simp [IstioParser.Ex.text]
  action := fun s h => by cases h; exact Or.inr (Or.inl rfl)
  labels := fun s h l hl => by cases h; cases hl; simp
  rules := fun s h r hr => by
    cases h
    simp only [spec, List.mem_cons, List.not_mem_nil, or_false] at hr
    rcases hr with rfl | rfl
    · exact rule1_tame E
    · exact rule2_tame E

theorem noGet_tame (E : Place) : noGet.Tame E where
  given := by simp [noGet]
  action := fun s h => by cases h; exact Or.inr (Or.inr ⟨rfl, by simp⟩)
  labels := fun s h l hl => by cases h; cases hl; simp
  rules := fun s h r hr => by
    cases h
    rw [List.mem_singleton.1 hr]
    exact ⟨nothing, one ⟨nothing, nothing, one (Or.inl (by decide)), nothing, nothing, nothing, nothing, nothing, by simp⟩, fun l e => by cases e⟩

theorem applies : AuthApplies cl nsDefault (.labels [("app", "db")]) D := by
  refine ⟨podB, by simp [cl], elemB, rfl, fun _ => ⟨_, rfl, rfl⟩, fun kv hkv => ?_⟩
  rw [List.mem_singleton.1 hkv]
  exact Or.inl (by decide)

theorem noGet_matches : noGet.Matches env.sa cl A req := by
  refine ⟨_, rfl, _, List.mem_singleton.2 rfl, fun l e => (by cases e), fun l e => ?_, fun l e => (by cases e)⟩
  cases e
  exact ⟨_, List.mem_singleton.2 rfl, among_no, apart_no, among_one (List.mem_singleton.2 rfl) (Matches.exact (by decide)), apart_no, among_no, apart_no, among_no, apart_no⟩

/-- Istio allows the request exactly if the policy that denies is not there. -/
theorem istio_says (d : Bool) : IstioSays env.sa cl (IstioParser.Ex.text :: if d then [noGet] else []) A D req ↔ d = false := by
  constructor
  · rintro ⟨h, _⟩
    cases d
    · rfl
    · exact absurd noGet_matches (h noGet (by simp) ⟨_, rfl, rfl⟩ ⟨_, rfl, applies⟩)
  · rintro rfl
    refine ⟨fun t ht hd => ?_, Or.inl ⟨IstioParser.Ex.text, by simp, ?_, ⟨_, rfl, applies⟩, _, rfl, rule1, by simp [spec], rule1_says⟩⟩
    · simp only [Bool.false_eq_true, if_false, List.mem_singleton] at ht
      subst ht
      obtain ⟨s, hs, ha⟩ := hd
      cases hs
      exact absurd ha (by decide)
    · rintro ⟨s, hs, ha⟩
      cases hs
      exact absurd ha (by decide)

/-- A Kubernetes policy, a Calico policy, and one or two authorization policies. -/
def docs (d : Bool) : List AnyDoc :=
  [.net (.k8s K8sParser.Ex.text), .istio "allow" IstioParser.Ex.text, .net (.calico "x" (simple (some 2000) true))] ++ if d then [.istio "deny" noGet] else []

theorem docs_net (d : Bool) : (docs d).filterMap AnyDoc.net? = [.k8s K8sParser.Ex.text, .calico "x" (simple (some 2000) true)] := by cases d <;> rfl
theorem docs_istio (d : Bool) : (docs d).filterMap AnyDoc.istio? = IstioParser.Ex.text :: if d then [noGet] else [] := by cases d <;> rfl

def items : List Item := [.k8s K8sParser.Ex.text, .calico (simple (some 2000) true) (simpleM true)]

theorem means (d : Bool) : List.Forall₂ (Doc.Means asc nsDefault) ((docs d).filterMap AnyDoc.net?) items := by
  rw [docs_net]
  exact .cons (.k8s _) (.cons (.calico _ _ _ (simple_means _ true)) .nil)

theorem items_tame : ∀ i ∈ items, i.Tame cl := by
  intro i hi
  simp only [items, List.mem_cons, List.not_mem_nil, or_false] at hi
  rcases hi with rfl | rfl
  · exact K8sParser.Ex.tame
  · exact simple_tame ..

theorem auth_tame (d : Bool) (E : Place) : ∀ t ∈ (docs d).filterMap AnyDoc.istio?, t.Tame E := by
  rw [docs_istio]
  intro t ht
  cases d
  · rw [List.mem_singleton.1 ht]; exact text_tame E
  · simp only [if_true, List.mem_cons, List.not_mem_nil, or_false] at ht
    rcases ht with rfl | rfl
    · exact text_tame E
    · exact noGet_tame E

/-- Non-vacuity of C51: the program answers that the request is allowed exactly if the policy that denies is not there. -/
example (ord : SetOrder) (d : Bool) : ∃ (B : PeerDom) (pols : _) (st : _), K8sParser.queryDom reg [cl] = some B.idx ∧
    queuePolicies asc LA LW lang env B ord reg cl nsDefault (docs d) = some pols ∧ PolicyStore.build (loadOrder pols) = some st ∧
    ∃ p : Point (connA LA B), p.1 = raw ∧ (connNet LL B).K.mem p
      (configConns (connNet LL B).toNet (calicoPeers LA LW B reg cl) st.layers ⟨false, false, true, true⟩).allAllowed = !d := by
  obtain ⟨B, hd, hB⟩ := domain
  obtain ⟨pols, st, h1, h2⟩ := (C51_accepted_partial (B := B) (ord := ord) LL asc_ok cluster icluster dfaLib (means d) items_tame
    (fun t ht => ⟨A, auth_tame d A t ht⟩)).2 ⟨fun t h s hs => (by
      have : t = K8sParser.Ex.text := by cases d <;> simpa [docs] using h
      subst this; cases hs
      exact (K8sParser.C44_accepted NamedEx.L2 K8sParser.Ex.cluster nsDefault K8sParser.Ex.spec).1 (K8sParser.Ex.accepted ord)), (by
      cases d <;> simp [docs, AnyDoc.key, Doc.key, simple, IstioParser.Ex.text, noGet])⟩
  let p : Point (connA LA B) := pt.toDom (fun z hz => by cases hz; exact hB _ A at_src) (fun z hz => by cases hz; exact hB _ D at_dst)
  refine ⟨B, pols, st, hd, h1, h2, p, rfl, ?_⟩
  have hr : IsRequest String.toList reg cl p A D req := ⟨isRequest.src, isRequest.dst, rfl, rfl, isRequest.method, isRequest.host, isRequest.path⟩
  have hc : IsConn reg cl p A D ⟨6, 1, 80, 0, 0⟩ := ⟨isRequest.src, isRequest.dst, rfl, rfl, rfl, rfl, rfl⟩
  have hpa : IsKind cl A [.pod] := ⟨podA, by simp [cl], elemA, by simp [podA, K8sParser.exPod]⟩
  have hnd : ¬ IsKind cl D [.dns] := by
    rintro ⟨a, ha, _, hk⟩
    simp only [cl, List.mem_cons, List.not_mem_nil, or_false] at ha hk
    rcases ha with rfl | rfl <;> simp [podA, podB, K8sParser.exPod] at hk
  rw [Bool.eq_iff_iff, C51_config_partial LL asc_ok cluster icluster dfaLib hB (means d) items_tame (auth_tame d A) h1 h2 _ rfl p _ hc req hr (Or.inl hpa)
    (fun h => absurd h hnd), docs_istio, istio_says, items, mixed_says]
  constructor
  · rintro ⟨_, h⟩
    rw [(h (by simp)).2.2 rfl]; rfl
  · intro h
    refine ⟨by decide, fun _ => ⟨⟨podA, by simp [cl], elemA, by simp [podA, K8sParser.exPod]⟩, fun h => absurd h hnd, fun _ => ?_⟩⟩
    cases d
    · rfl
    · cases h

end CfgEx
end IstioParser
end Verif
