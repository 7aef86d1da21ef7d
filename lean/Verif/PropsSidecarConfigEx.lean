import Verif.PropsSidecarConfig
import Verif.PropsSidecarEx
import Verif.PropsIngressConfigEx
/-!
C58: examples.
-/
namespace Verif
open ISet IpBlock PeerSet

namespace SidecarParser
open Container CalicoParser IstioParser IngressParser

namespace Ex
open IstioParser.Ex (LA LW LL dom pt raw req)
open IngressParser.Ex (ingressLib lang3)

theorem calCluster : CalCluster reg cl where
  reach := cluster.reach
  room := icluster.room
  ports := cluster.ports
  ok := cluster.ok
  uniq := cluster.uniq
  disj := by
    intro p hp q hq a b ha hb
    rcases mem_cl hp with rfl | rfl | rfl <;> cases ha
  spaces := by
    constructor <;> intro p hp <;> rcases mem_cl hp with rfl | rfl | rfl <;> simp [podA, podB, site]
  reg := by
    intro p hp k h
    obtain ⟨j, hj, hm⟩ := cluster.elem p hp
    rw [h] at hj; cases hj; exact hm
  sets := by
    intro p hp
    rcases mem_cl hp with rfl | rfl | rfl <;> simp [podA, podB, site]

theorem domain : ∃ B : PeerDom, K8sParser.queryDom reg [cl] = some B.idx ∧ Covers reg cl B := by
  obtain ⟨B, h1, _, h2⟩ := C49_domain (cs := [cl]) (fun c hc => by rw [List.mem_singleton] at hc; subst hc; exact calCluster) (by simp)
  exact ⟨B, h1, h2 cl (by simp)⟩

theorem at_src : (Place.pod "shop/a").At (X2 := Empty) reg cl (.inl (minPodIndex + (0 : Nat))) := ⟨⟨podA, by simp [cl], rfl⟩, 0, rfl, rfl⟩
theorem at_dst : (Place.pod "test/b").At (X2 := Empty) reg cl (.inl (minPodIndex + (1 : Nat))) := ⟨⟨podB, by simp [cl], rfl⟩, 1, rfl, rfl⟩

/-- The Sidecars with or without that of the pods `app: web`. -/
def some_texts (d : Bool) : List SidecarText := if d then texts else [tRoot, tShop]

theorem sub_texts {d : Bool} {t : SidecarText} (h : t ∈ some_texts d) : t ∈ texts := by
  cases d
  · simp only [some_texts, Bool.false_eq_true, if_false, List.mem_cons, List.not_mem_nil, or_false] at h
    rcases h with rfl | rfl <;> simp [texts]
  · exact h

theorem some_noConflict (d : Bool) : NoConflict cl (some_texts d) := by
  cases d
  · exact noConflict.sublist (.cons_cons _ (.cons _ (.refl _)))
  · exact noConflict

theorem applies_shop : tShop.Applies cl (.pod "shop/a") := ⟨podA, by simp [cl], rfl, rfl, fun _ => ⟨nsShop, rfl, rfl⟩, trivial⟩

theorem governs_shop : Governs cl [tRoot, tShop] tShop (.pod "shop/a") :=
  ⟨by simp, applies_shop, fun t' ht' _ => by
    simp only [List.mem_cons, List.not_mem_nil, or_false] at ht'
    rcases ht' with rfl | rfl <;> decide⟩

/-- The pod `shop/a` may send to `test/b` exactly if its own Sidecar is there. -/
theorem sidecars_say (d : Bool) : SidecarsSay cl svcs (some_texts d) (.pod "shop/a") (.pod "test/b") ↔ d = true := by
  constructor
  · intro h
    cases d
    · rcases h tShop governs_shop ⟨_, rfl, by simp⟩ with ⟨_, x, hx⟩ | ⟨r, hr, hosts, hh, h, h', own, _, ns, dn, hi, hx⟩
      · cases hx
      · cases hr
        rw [List.mem_singleton.1 hh, List.mem_singleton] at h'
        subst h'
        obtain ⟨rfl, rfl⟩ := hostIs_unique is_site hi
        rcases hx with ⟨s, hs, _, hn, _⟩ | ⟨_, w, ⟨p, hp, hE, hk, _⟩, _⟩
        · rcases hn with hn | ⟨_, hn⟩ | ⟨s, u, hn, _⟩
          · exact absurd hn (by decide)
          · rcases mem_svcs hs with rfl | rfl <;> exact absurd hn (by decide)
          · exact absurd (List.cons.inj (show 'w' :: "ww.example.com".toList = _ from hn)).1 (by decide)
        · rcases mem_cl hp with rfl | rfl | rfl
          · cases hk
          · cases hk
          · exact absurd (Place.pod.inj (holds_pod (k := "www.example.com") rfl hE)) (by decide)
    · rfl
  · rintro rfl t hg _
    obtain rfl := C57_one_sidecar cluster noConflict hg governs_web
    exact Or.inr ⟨_, rfl, [hDb], by simp, hDb, by simp, _, space_a, exposes_db⟩

/-- Non-vacuity of C58: the program answers that the request is allowed exactly if the Sidecar of the pod is there. -/
example (ord : SetOrder) (d : Bool) : ∃ (B : PeerDom) (S : _) (pols sc : _) (st : _), K8sParser.queryDom reg [cl] = some B.idx ∧
    services reg cl svcs = some S ∧ cfgPolicies asc LA LW lang3 env B ord reg cl S nsShop [] = some pols ∧
    sidecarPolicies LA LW B ord reg cl S (some_texts d) = some sc ∧ PolicyStore.build (loadOrder (pols ++ sc)) = some st ∧
    ∃ p : Point (connA LA B), p.1 = raw ∧ (connNet LL B).K.mem p
      (configConns (connNet LL B).toNet (calicoPeers LA LW B reg cl) st.layers ⟨false, false, true, true⟩).allAllowed = d := by
  obtain ⟨B, hd, hB⟩ := domain
  obtain ⟨S, pols, sc, st, h0, h1, h2, h3⟩ := (C58_accepted_partial (B := B) (ord := ord) (ts := some_texts d) (ds := []) (is := []) (dflt := nsShop) LL asc_ok calCluster icluster
    ingressLib hB svcs_tame named .nil (fun i h => by cases h) (fun t h => by cases h) (fun t h => by cases h) (fun t h => (tame (sub_texts h)).toLegal)).2
    ⟨⟨fun t h => (by cases h), .nil⟩, some_noConflict d, by
      cases d <;> simp only [some_texts, texts, Bool.false_eq_true, if_false, if_true, List.pairwise_cons, List.mem_cons, List.not_mem_nil, or_false, forall_eq_or_imp, forall_eq,
        List.Pairwise.nil, false_implies, implies_true, and_true] <;> decide⟩
  let p : Point (connA LA B) := pt.toDom (fun z hz => by cases hz; exact hB _ _ at_src) (fun z hz => by cases hz; exact hB _ _ at_dst)
  refine ⟨B, S, pols, sc, st, hd, h0, h1, h2, h3, p, rfl, ?_⟩
  have hr : IsRequest String.toList reg cl p (.pod "shop/a") (.pod "test/b") req := ⟨isRequest.src, isRequest.dst, rfl, rfl, isRequest.method, isRequest.host, isRequest.path⟩
  have hc : IsConn reg cl p (.pod "shop/a") (.pod "test/b") ⟨6, 1, 80, 0, 0⟩ := ⟨isRequest.src, isRequest.dst, rfl, rfl, rfl, rfl, rfl⟩
  have hpa : IsKind cl (.pod "shop/a") [.pod] := ⟨podA, by simp [cl], rfl, by simp [podA]⟩
  have hnd : ¬ IsKind cl (.pod "test/b") [.dns] := by
    rintro ⟨a, ha, hE, hk⟩
    rcases mem_cl ha with rfl | rfl | rfl
    · simp [podA] at hk
    · simp [podB] at hk
    · exact absurd (Place.pod.inj (holds_pod (k := "www.example.com") rfl hE)) (by decide)
  rw [Bool.eq_iff_iff, C58_config_partial LL asc_ok calCluster icluster ingressLib hB svcs_tame named h0 (is := []) .nil (fun i h => by cases h) (fun t h => by cases h)
    (fun t h => by cases h) (fun t h => tame (sub_texts h)) h1 h2 h3 _ rfl p _ hc req hr (fun t h => by cases h) (Or.inl hpa) (fun h => absurd h hnd), sidecars_say]
  constructor
  · rintro ⟨⟨_, h⟩, _⟩
    exact ((h (Or.inr (by cases d <;> simp [some_texts, texts]))).2.2 rfl).2
  · intro h
    refine ⟨⟨calico_empty icluster hr.src hr.dst _, fun _ => ⟨⟨podA, by simp [cl], rfl, by simp [podA]⟩, fun h => absurd h hnd, fun _ => ⟨?_, h⟩⟩⟩, fun h => absurd rfl h⟩
    exact ⟨fun t ht => (by cases ht), Or.inr fun t ht => (by cases ht)⟩

end Ex
end SidecarParser
end Verif
