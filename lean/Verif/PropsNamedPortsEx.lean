import Verif.PropsNamedPorts
/-!
C43 (named ports): witnesses and examples.
-/
namespace Verif
open ISet

namespace NamedEx

/-- A simple algebra for the two string dimensions. -/
abbrev A2 : VAlg Dim ISet Int := isetAlg (fun _ => [⟨0, 9⟩])
abbrev W2 : Dim → ISet → Prop := isetWf (fun _ => [⟨0, 9⟩])
theorem L2 : A2.Lawful W2 := isetAlg_lawful _ (fun _ => canonical_singleton.2 (by decide)) (fun _ => rfl)

/-- A TCP connection (protocol 6) or one of another protocol between two indices. -/
def raw (s d port proto : Int) : Dim → Int ⊕ Int
  | .srcPeers => .inl s | .dstPeers => .inl d | .protocols => .inl proto | .srcPorts => .inl 1 | .dstPorts => .inl port
  | .methods => .inl 0 | .hosts => .inr 0 | .paths => .inr 0 | .icmpType => .inl 0 | .icmpCode => .inl 0

theorem raw_dom {s d port proto : Int} (hs : Mem s Base.all) (hd : Mem d Base.all) (hp : 1 ≤ port ∧ port ≤ 65535)
    (hq : 0 ≤ proto ∧ proto ≤ 255) : InDom (connA A2 PeerDom.default) (raw s d port proto) := by
  intro x
  cases x
  case srcPeers => exact (mem_inl A2 _ _ _ Base.all_canonical).2 hs
  case dstPeers => exact (mem_inl A2 _ _ _ Base.all_canonical).2 hd
  case dstPorts => exact (mem_inl A2 PeerDom.default _ _ (canonical_singleton.2 (by decide))).2 (mem_singleton.2 hp)
  case protocols => exact (mem_inl A2 PeerDom.default _ _ (canonical_singleton.2 (by decide))).2 (mem_singleton.2 hq)
  all_goals rfl

theorem pod_mem (n : Nat) (h : n < 10000) : Mem (minPodIndex + n) Base.all :=
  (Base.all_mem _).2 (Or.inr (Or.inr ⟨by omega, by unfold maxPodIndex maxPods; omega⟩))

/-- A connection from the first registered peer to the second one. -/
def pt (port proto : Int) (hp : 1 ≤ port ∧ port ≤ 65535) (hq : 0 ≤ proto ∧ proto ≤ 255) : Point (connA A2 PeerDom.default) :=
  ⟨raw (minPodIndex + (0 : Nat)) (minPodIndex + (1 : Nat)) port proto, raw_dom (pod_mem 0 (by decide)) (pod_mem 1 (by decide)) hp hq⟩

/-- The dictionary of a rule from pod `default/a` to pod `default/b`. -/
def dict (protocols : ISet) (P : PortSet) : ConnDict := ⟨some [.pod "default/a"], some [.pod "default/b"], some protocols, some P⟩

def keys : List String := ["default/a", "default/b"]

theorem keys_reach : Base.Reach keys :=
  .add (.pod "default/b") (.add (.pod "default/a") .empty (by decide : _ = some ["default/a"])) (by decide)

theorem dict_legal {protocols : ISet} {P : PortSet} (h1 : Canonical protocols ∧ ∀ z, Mem z protocols → 0 ≤ z ∧ z ≤ 255)
    (h2 : Canonical P.ports ∧ ∀ z, Mem z P.ports → 1 ≤ z ∧ z ≤ 65535) : (dict protocols P).Legal Int keys PeerDom.default := by
  refine ⟨fun S hS => ?_, fun l hl => by cases hl; exact h1, fun Q hQ => by cases hQ; exact h2⟩
  refine ⟨?_, ?_, fun z hz => at_default keys_reach hz⟩
  · intro b hb
    rcases hS with hS | hS <;> cases hS <;> simp at hb
  · intro k hk
    unfold PeerSet.HasPod at hk
    rcases hS with hS | hS <;> cases hS <;> simp at hk <;> subst hk <;> decide

theorem fits {protocols : ISet} {P : PortSet} {port proto : Int} {hp : 1 ≤ port ∧ port ≤ 65535} {hq : 0 ≤ proto ∧ proto ≤ 255}
    (h : Mem proto protocols) : (dict protocols P).Fits A2 PeerDom.default keys (pt port proto hp hq) := by
  refine ⟨fun S hS => ?_, fun S hS => ?_, fun l hl => ?_⟩
  · cases hS; exact Or.inr ⟨0, "default/a", rfl, rfl, List.mem_singleton.2 rfl⟩
  · cases hS; exact Or.inr ⟨1, "default/b", rfl, rfl, List.mem_singleton.2 rfl⟩
  · cases hl; exact ⟨proto, rfl, h⟩

/-- The destination of `pt` is the pod `default/b`. -/
theorem dst_iff {port proto : Int} {hp : 1 ≤ port ∧ port ≤ 65535} {hq : 0 ≤ proto ∧ proto ≤ 255} {Q : String → Prop} :
    (∃ n k, (pt port proto hp hq).1 .dstPeers = .inl (minPodIndex + (n : Nat)) ∧ keys[n]? = some k ∧ Q k) ↔ Q "default/b" := by
  constructor
  · rintro ⟨n, k, h1, h2, h3⟩
    have : n = 1 := by
      have h1' : (Sum.inl (minPodIndex + ((1 : Nat) : Int)) : Int ⊕ Int) = .inl (minPodIndex + (n : Nat)) := h1
      simp only [Sum.inl.injEq] at h1'
      omega
    subst this
    cases h2; exact h3
  · intro h; exact ⟨1, "default/b", rfl, rfl, h⟩

theorem legal_ports {r : PodReg} (h : ∀ q ∈ r, ∀ e ∈ q.2, (1 ≤ e.2.1 ∧ e.2.1 ≤ 65535) ∧ (Proto.getNumber e.2.2).isSome = true) (k : String) :
    LegalPorts (r.named k) := by
  intro name num pr hl
  unfold PodReg.named at hl
  cases hk : r.lookup k with
  | none => rw [hk] at hl; simp at hl
  | some v =>
    rw [hk] at hl
    simp only [Option.getD_some] at hl
    obtain ⟨a, b, rfl, _⟩ := List.lookup_eq_some_iff.1 hk
    obtain ⟨c, d, rfl, _⟩ := List.lookup_eq_some_iff.1 hl
    have := h (k, c ++ (name, num, pr) :: d) (by simp) (name, num, pr) (by simp)
    exact ⟨this.1, Option.isSome_iff_exists.1 this.2⟩

/-- The set of ports with one name. -/
def named (s : String) : PortSet := ⟨[], {s}, ∅⟩

/-- C43, finding: the pods of all configurations of a run are registered in one table by name, and the first one of a
name stays.  Here the pod `default/b` has port 80 named `http` in the first configuration and port 8080 in the second
one; a rule of the second configuration for port `http` then allows port 80 and not port 8080. -/
theorem C43_second_configuration_wrong (ord : SetOrder) :
    ∃ r, PodReg.Reach r [("default/a", []), ("default/b", [("http", 80, "TCP")]), ("default/a", []), ("default/b", [("http", 8080, "TCP")])] ∧
      ∃ h, makeFromDict A2 PeerDom.default ord r (dict [⟨6, 6⟩] (named "http")) = some h ∧
        (connNet L2 PeerDom.default).K.mem (pt 80 6 (by decide) (by decide)) h = true ∧
        (connNet L2 PeerDom.default).K.mem (pt 8080 6 (by decide) (by decide)) h = false := by
  refine ⟨[("default/a", []), ("default/b", [("http", 80, "TCP")])], ?_, ?_⟩
  · have h1 : PodReg.Reach [("default/a", [])] ([] ++ [("default/a", [])]) := .add "default/a" [] .empty (by decide)
    have h2 : PodReg.Reach [("default/a", []), ("default/b", [("http", 80, "TCP")])] (_ ++ [("default/b", [("http", 80, "TCP")])]) :=
      .add "default/b" _ h1 (by decide)
    have h3 : PodReg.Reach [("default/a", []), ("default/b", [("http", 80, "TCP")])] (_ ++ [("default/a", [])]) :=
      .add "default/a" _ h2 (by decide)
    have h4 : PodReg.Reach [("default/a", []), ("default/b", [("http", 80, "TCP")])] (_ ++ [("default/b", [("http", 8080, "TCP")])]) :=
      .add "default/b" _ h3 (by decide)
    exact h4
  · obtain ⟨h, e, _, m⟩ := C43_from_dict L2 (ord := ord) (rg := [("default/a", []), ("default/b", [("http", 80, "TCP")])])
      (B := PeerDom.default) keys_reach (legal_ports (by decide))
      (dict_legal (protocols := [⟨6, 6⟩]) (P := named "http") ⟨canonical_singleton.2 (by decide), fun z hz => by rw [mem_singleton] at hz; unfold Iv.Mem at hz; dsimp only at hz; omega⟩
        ⟨canonical_nil, fun z hz => absurd hz not_mem_nil⟩) (Or.inl (by simp [dict])) (Or.inl (fun P hP => by cases hP; rfl))
    refine ⟨h, e, ?_, ?_⟩
    · rw [m]
      refine ⟨fits (mem_singleton.2 ⟨by decide, by decide⟩), fun P hP => ?_⟩
      cases hP
      refine ⟨80, rfl, Or.inr (dst_iff.2 ⟨"http", by simp [named], "TCP", 6, rfl, rfl, mem_singleton.2 ⟨by decide, by decide⟩⟩), ?_⟩
      refine fun hh => ?_
      obtain ⟨name, hn, _⟩ := dst_iff.1 hh
      simp [named] at hn
    · rw [← Bool.not_eq_true, m]
      rintro ⟨_, hP⟩
      obtain ⟨x, hx, h1, _⟩ := hP _ rfl
      have hx' : x = 8080 := by
        have : (Sum.inl 8080 : Int ⊕ Int) = .inl x := hx
        cases this; rfl
      subst hx'
      rcases h1 with h1 | h1
      · exact absurd h1 not_mem_nil
      · obtain ⟨name, hn, pr, n, hl, _⟩ := dst_iff.1 h1
        have hn' : name = "http" := by simpa [named] using hn
        subst hn'
        exact absurd hl (by simp [PodReg.named, List.lookup])

/-- C43: with several protocols in the cube, a port named for one of them is allowed for all of them.  Here `dns` is
the UDP port 53 of the pod, and TCP connections to port 53 are in the result.  (The parsers of policies never give
named ports together with several protocols.) -/
theorem C43_several_protocols (ord : SetOrder) :
    ∃ h, makeFromDict A2 PeerDom.default ord [("default/a", []), ("default/b", [("dns", 53, "UDP")])]
        (dict [⟨6, 6⟩, ⟨17, 17⟩] (named "dns")) = some h ∧
        (connNet L2 PeerDom.default).K.mem (pt 53 6 (by decide) (by decide)) h = true := by
  obtain ⟨h, e, _, m⟩ := C43_from_dict L2 (ord := ord) (rg := [("default/a", []), ("default/b", [("dns", 53, "UDP")])])
      (B := PeerDom.default) keys_reach (legal_ports (by decide))
      (dict_legal (protocols := [⟨6, 6⟩, ⟨17, 17⟩]) (P := named "dns") ⟨canonical_cons.2 ⟨by decide, canonical_singleton.2 (by decide), by
          intro b hb; rw [List.mem_singleton] at hb; subst hb; decide⟩, fun z hz => by
          rw [mem_cons, mem_singleton] at hz; unfold Iv.Mem at hz; dsimp only at hz; omega⟩
        ⟨canonical_nil, fun z hz => absurd hz not_mem_nil⟩) (Or.inl (by simp [dict])) (Or.inl (fun P hP => by cases hP; rfl))
  refine ⟨h, e, ?_⟩
  rw [m]
  refine ⟨fits (mem_cons.2 (Or.inl ⟨by decide, by decide⟩)), fun P hP => ?_⟩
  cases hP
  refine ⟨53, rfl, Or.inr (dst_iff.2 ⟨"dns", by simp [named], "UDP", 17, rfl, rfl, mem_cons.2 (Or.inr (mem_singleton.2 ⟨by decide, by decide⟩))⟩), ?_⟩
  refine fun hh => ?_
  obtain ⟨name, hn, _⟩ := dst_iff.1 hh
  simp [named] at hn

/-- All ports but those with a name. -/
def allBut (s : String) : PortSet := ⟨[⟨1, 65535⟩], ∅, {s}⟩

/-- Non-vacuity: all ports of `default/b` but the one it calls `http`; the hypotheses of `C43_from_dict` hold, port 81 is
in the set and port 80 is not. -/
example (ord : SetOrder) :
    ∃ h, makeFromDict A2 PeerDom.default ord [("default/a", []), ("default/b", [("http", 80, "TCP")])] (dict [⟨6, 6⟩] (allBut "http")) = some h ∧
        (connNet L2 PeerDom.default).K.mem (pt 81 6 (by decide) (by decide)) h = true ∧
        (connNet L2 PeerDom.default).K.mem (pt 80 6 (by decide) (by decide)) h = false := by
  obtain ⟨h, e, _, m⟩ := C43_from_dict L2 (ord := ord) (rg := [("default/a", []), ("default/b", [("http", 80, "TCP")])])
      (B := PeerDom.default) keys_reach (legal_ports (by decide))
      (dict_legal (protocols := [⟨6, 6⟩]) (P := allBut "http") ⟨canonical_singleton.2 (by decide), fun z hz => by rw [mem_singleton] at hz; unfold Iv.Mem at hz; dsimp only at hz; omega⟩
        ⟨canonical_singleton.2 (by decide), fun z hz => mem_singleton.1 hz⟩) (Or.inl (by simp [dict]))
      (Or.inr ⟨[.pod "default/a"], minPodIndex + (1 : Nat), rfl, pod_mem 1 (by decide), by
        rintro (⟨x, hx, b, hb, _⟩ | ⟨n, k, hn, hk, hp⟩)
        · simp at hb
        · have : n = 1 := by
            simp only [Sum.inl.injEq] at hn
            omega
          subst this
          cases hk
          simp [PeerSet.HasPod] at hp⟩)
  refine ⟨h, e, ?_, ?_⟩
  · rw [m]
    refine ⟨fits (mem_singleton.2 ⟨by decide, by decide⟩), fun P hP => ?_⟩
    cases hP
    refine ⟨81, rfl, Or.inl (mem_singleton.2 ⟨by decide, by decide⟩), fun hh => ?_⟩
    obtain ⟨name, hn, pr, n, hl, _⟩ := dst_iff.1 hh
    have hn' : name = "http" := by simpa [allBut] using hn
    subst hn'
    exact absurd hl (by simp [PodReg.named, List.lookup])
  · rw [← Bool.not_eq_true, m]
    rintro ⟨_, hP⟩
    obtain ⟨x, hx, _, h1⟩ := hP _ rfl
    have hx' : x = 80 := by
      have : (Sum.inl 80 : Int ⊕ Int) = .inl x := hx
      cases this; rfl
    subst hx'
    exact h1 (dst_iff.2 ⟨"http", by simp [allBut], "TCP", 6, rfl, rfl, mem_singleton.2 ⟨by decide, by decide⟩⟩)

/-- The named ports of a pod from its containers: a later port of the same name replaces the earlier one. -/
example : podPorts [(some "http", 80, some "TCP"), (none, 81, none), (some "http", 8080, none)] =
    [("http", 8080, "TCP"), ("http", 80, "TCP")] := by decide

end NamedEx
end Verif
