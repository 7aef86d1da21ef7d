import Verif.PlainPeers
import Verif.PropsPlainList
import Verif.ConnNet
import Verif.PropsCidrText
/-!
C70 for the connection sets and peers of the program.
-/
namespace Verif.PlainList
open ISet IpBlock

section
variable {κ V2 X2 : Type} [DecidableEq κ] {A2 : VAlg Dim V2 X2} {W2 : Dim → V2 → Prop} {B : PeerDom} {reg : List κ}
  {nm : κ → String}

/-- The domain of peers has no indices of pods that are not registered. -/
def Registered (reg : List κ) (B : PeerDom) : Prop := ∀ z, Mem z B.idx → minPodIndex ≤ z → z < minPodIndex + reg.length

theorem any_has {b : IpBlock} (h : IpBlock.Built b) (z : Int) :
    (b.any fun i => decide ((Base.ivIndex i).s ≤ z ∧ z ≤ (Base.ivIndex i).e)) = true ↔ ∃ x : Ip, z = x.idx ∧ b.Has x := by
  have hw := built_wf h
  rw [← mem_emb_idx hw, List.any_eq_true]
  unfold Mem emb
  simp only [List.mem_map, exists_exists_and_eq_and, decide_eq_true_eq]
  refine exists_congr fun i => and_congr_right fun hi => ?_
  rw [Base.ivIndex_eq (hw.good i hi)]
  rfl

/-- The pieces of a set of indices. -/
theorem pieces_spec (hr : Registered reg B) {l : ISet} (hc : Canonical l) (hd : ∀ z, Mem z l → Mem z B.idx) :
    (∀ b, PeerElem.ip b ∈ realPieces (V2 := V2) reg (.inl l) → IpBlock.Built b ∧ b.length = 1) ∧
    (∀ k, PeerElem.pod k ∈ realPieces (V2 := V2) reg (.inl l) ↔ ∃ n : Nat, reg[n]? = some k ∧ Mem (minPodIndex + n) l) ∧
    ∀ x : Ip, (∃ b, PeerElem.ip b ∈ realPieces (V2 := V2) reg (.inl l) ∧ b.Has x) ↔ Mem x.idx l := by
  obtain ⟨p, hp, ok, h1, h2⟩ := Base.C22_from_indices_exact_partial (reg := reg) hc
    (fun z hz => (Base.mem_all z).1 (B.sub z (hd z hz)))
    (fun i hi hs => hr i.s (hd _ ⟨i, hi, Int.le_refl _, hc.1 i hi⟩) hs)
  obtain ⟨s1, s2, s3, s4⟩ := PeerSet.C22_split_exact ok
  have e : realPieces (V2 := V2) reg (.inl l) = p.split := by simp [realPieces, hp]
  rw [e]
  exact ⟨fun b hb => ⟨s1 b hb, s4 b hb⟩, fun k => (s2 k).trans (h2 k), fun x => (s3 x).trans (h1 x)⟩

theorem legal_inl {d : Dim} (hdim : d = .srcPeers ∨ d = .dstPeers) {v : ISet ⊕ V2} (hv : connWf W2 B d v) :
    ∃ l, v = .inl l ∧ Canonical l ∧ ∀ z, Mem z l → Mem z B.idx := by
  rcases v with l | w
  · rcases hdim with rfl | rfl <;> exact ⟨l, rfl, hv.2⟩
  · rcases hdim with rfl | rfl <;> exact absurd hv.1 (by simp [Dim.isDfa])

theorem index_inj (hn : reg.Nodup) {n m : Nat} {k : κ} (h1 : reg[n]? = some k) (h2 : reg[m]? = some k) : n = m :=
  (List.getElem?_inj (List.getElem?_eq_some_iff.1 h1).1 hn).1 (by rw [h1, h2])

/-- Pieces have exactly the peers of the set. -/
theorem real_covers (hn : reg.Nodup) (hr : Registered reg B) {d : Dim} (hdim : d = .srcPeers ∨ d = .dstPeers) :
    (real (V2 := V2) (X2 := X2) reg nm).Covers (connA A2 B) (connWf W2 B) d := by
  refine ⟨fun {v} hv x => ?_⟩
  obtain ⟨l, rfl, hc, hd⟩ := legal_inl hdim hv
  obtain ⟨p1, p2, p3⟩ := pieces_spec (V2 := V2) hr hc hd
  rcases x with z | x
  swap
  · constructor
    · intro h; change false = true at h; simp at h
    · rintro ⟨s, -, h⟩; simp [real, realIn] at h
  rw [mem_inl A2 B z l hc]
  change _ ↔ ∃ s ∈ realPieces (V2 := V2) reg (.inl l), realIn (X2 := X2) reg (.inl z) s = true
  constructor
  · intro hz
    rcases (Base.mem_all z).1 (B.sub z (hd z hz)) with ⟨x, rfl⟩ | ⟨hz1, hz2⟩
    · obtain ⟨b, hb, hx⟩ := (p3 x).2 hz
      exact ⟨_, hb, (any_has (p1 b hb).1 _).2 ⟨x, rfl, hx⟩⟩
    · have hlt := hr z (hd z hz) hz1
      have hn : (z - minPodIndex).toNat < reg.length := by omega
      refine ⟨.pod reg[(z - minPodIndex).toNat], (p2 _).2 ⟨(z - minPodIndex).toNat, List.getElem?_eq_getElem hn, ?_⟩, ?_⟩
      · rwa [show minPodIndex + ((z - minPodIndex).toNat : Int) = z by omega]
      · simp [realIn, hz1, List.getElem?_eq_getElem hn]
  · rintro ⟨k | b, hs, hin⟩
    · simp only [realIn, Bool.and_eq_true, decide_eq_true_eq] at hin
      obtain ⟨n, hk, hm⟩ := (p2 k).1 hs
      have := index_inj hn hk hin.2
      subst this
      rwa [show minPodIndex + ((z - minPodIndex).toNat : Int) = z by omega] at hm
    · obtain ⟨x, rfl, hx⟩ := (any_has (p1 b hs).1 z).1 hin
      exact (p3 x).1 ⟨b, hs, hx⟩

/-- Names of peers: no two registered peers have the same, and none can be read as addresses (C64). -/
structure GoodNames (reg : List κ) (nm : κ → String) : Prop where
  inj : ∀ k ∈ reg, ∀ k' ∈ reg, nm k = nm k' → k = k'
  noText : ∀ k ∈ reg, ∀ S, ¬ BlockText (nm k).toList S

theorem real_piece (hr : Registered reg B) {d : Dim} (hdim : d = .srcPeers ∨ d = .dstPeers) {s : PeerElem κ}
    (h : (real (V2 := V2) (X2 := X2) reg nm).Piece (connWf W2 B) d s) :
    (∃ k ∈ reg, s = .pod k) ∨ ∃ b, s = .ip b ∧ IpBlock.Built b := by
  obtain ⟨v, hv, hs⟩ := h
  obtain ⟨l, rfl, hc, hd⟩ := legal_inl hdim hv
  obtain ⟨p1, p2, p3⟩ := pieces_spec (V2 := V2) hr hc hd
  rcases s with k | b
  · obtain ⟨n, hn, -⟩ := (p2 k).1 hs
    exact Or.inl ⟨k, List.mem_of_getElem? hn, rfl⟩
  · exact Or.inr ⟨b, rfl, (p1 b hs).1⟩

/-- Pieces with the same name are the same. -/
theorem name_inj (hg : GoodNames reg nm) {s s' : PeerElem κ} (hs : (∃ k ∈ reg, s = .pod k) ∨ ∃ b, s = .ip b ∧ IpBlock.Built b)
    (hs' : (∃ k ∈ reg, s' = .pod k) ∨ ∃ b, s' = .ip b ∧ IpBlock.Built b) (h : realName nm s = realName nm s') : s = s' := by
  rcases hs with ⟨k, hk, rfl⟩ | ⟨b, rfl, hb⟩ <;> rcases hs' with ⟨k', hk', rfl⟩ | ⟨b', rfl, hb'⟩
  · rw [hg.inj k hk k' hk' h]
  · obtain ⟨t, ht, hx, -⟩ := C64_short_text hb' true
    simp only [realName, ht, Option.getD_some] at h
    exact absurd (by rw [h]; simpa using hx) (hg.noText k hk _)
  · obtain ⟨t, ht, hx, -⟩ := C64_short_text hb true
    simp only [realName, ht, Option.getD_some] at h
    exact absurd (by rw [← h]; simpa using hx) (hg.noText k' hk' _)
  · obtain ⟨t, ht, -⟩ := C64_short_text hb true
    obtain ⟨t', ht', -⟩ := C64_short_text hb' true
    simp only [realName, ht, ht', Option.getD_some] at h
    have := String.ofList_injective h
    subst this
    rw [C64_faithful hb hb' (Or.inr (Or.inr ⟨true, ht⟩)) (Or.inr (Or.inr ⟨true, ht'⟩))]

theorem real_distinct (hr : Registered reg B) (hg : GoodNames reg nm) {d : Dim} (hdim : d = .srcPeers ∨ d = .dstPeers) :
    (real (V2 := V2) (X2 := X2) reg nm).Distinct (connWf W2 B) d := by
  intro s s' hs hs' he x
  rw [name_inj hg (real_piece hr hdim hs) (real_piece hr hdim hs') he]

/-- A connection between two different peers, not both of which are addresses. -/
def TwoEnds (p : Dim → Int ⊕ X2) : Prop :=
  p .srcPeers ≠ p .dstPeers ∧ ∃ z, (p .srcPeers = .inl z ∨ p .dstPeers = .inl z) ∧ minPodIndex ≤ z

theorem in_pod {x : Int ⊕ X2} {k : κ} (h : realIn reg x (.pod k) = true) :
    ∃ z, x = .inl z ∧ minPodIndex ≤ z ∧ reg[(z - minPodIndex).toNat]? = some k := by
  rcases x with z | x
  · simp only [realIn, Bool.and_eq_true, decide_eq_true_eq] at h
    exact ⟨z, rfl, h⟩
  · simp [realIn] at h

theorem in_ip {x : Int ⊕ X2} {b : IpBlock} (hb : IpBlock.Built b) (h : realIn reg x (.ip b) = true) :
    ∃ z, x = .inl z ∧ z < minPodIndex := by
  rcases x with z | x
  · obtain ⟨y, rfl, -⟩ := (any_has hb z).1 h
    exact ⟨_, rfl, by have := Base.idx_lt y; omega⟩
  · simp [realIn] at h

theorem real_apart (hn : reg.Nodup) (hr : Registered reg B) (hg : GoodNames reg nm) (excl : Bool) {p : Dim → Int ⊕ X2} (hp : TwoEnds p) :
    Apart (connWf W2 B) .srcPeers .dstPeers (real (V2 := V2) (X2 := X2) reg nm) excl p := by
  intro s d hs hd h1 h2
  have hne : realName nm s ≠ realName nm d := by
    intro he
    have := name_inj hg (real_piece hr (Or.inl rfl) hs) (real_piece hr (Or.inr rfl) hd) he
    subst this
    rcases real_piece hr (Or.inl rfl) hs with ⟨k, -, rfl⟩ | ⟨b, rfl, hb⟩
    · obtain ⟨z, e1, g1, f1⟩ := in_pod h1
      obtain ⟨z', e2, g2, f2⟩ := in_pod h2
      have := index_inj hn f1 f2
      exact hp.1 (by rw [e1, e2, show z = z' by omega])
    · obtain ⟨z, e1, g1⟩ := in_ip hb h1
      obtain ⟨z', e2, g2⟩ := in_ip hb h2
      obtain ⟨w, hw | hw, hle⟩ := hp.2
      · rw [hw] at e1; cases e1; omega
      · rw [hw] at e2; cases e2; omega
  exact ⟨fun e => hne (by rw [e]), fun _ => hne⟩

theorem tcp_wf : connWf W2 B .protocols (tcpVal : ISet ⊕ V2) := by
  refine ⟨rfl, canonical_singleton.2 (by decide), fun x hx => ?_⟩
  rw [mem_singleton] at hx
  refine mem_singleton.2 ?_
  unfold Iv.Mem at *; dsimp only at *; omega

theorem tcp_parts (x : Int ⊕ X2) (hx : (connA A2 B).mem x ((connA A2 B).dom .protocols) = true) :
    (connA A2 B).mem x nonTcpVal = !(connA A2 B).mem x tcpVal := by
  rcases x with x | x
  · have h1 : Mem x [⟨0, 255⟩] := (mem_inl A2 B x _ (canonical_singleton.2 (by decide))).1 hx
    rw [mem_singleton] at h1
    rw [Bool.eq_iff_iff, Bool.not_eq_true', ← Bool.not_eq_true]
    refine (mem_inl A2 B x _ nonTcp_legal).trans (Iff.trans ?_ (not_congr (mem_inl A2 B x _ (canonical_singleton.2 (by decide)))).symm)
    rw [mem_cons, mem_singleton, mem_singleton]
    unfold Iv.Mem at *; dsimp only at *; omega
  · change false = true at hx; simp at hx

theorem program_exact (L2 : A2.Lawful W2) (hreg : Base.Reach reg) (hr : Registered reg B) (hg : GoodNames reg nm)
    {len : List (List (Dim × (ISet ⊕ V2))) → Nat} {h : HC Dim (ISet ⊕ V2)} {S : (Dim → Int ⊕ X2) → Prop}
    (hS : ∀ p, InDom (connA A2 B) p → (h.Pt (connA A2 B) p ↔ S p)) (hs : HcStrong (connA A2 B) (connWf W2 B) allDims h) (istio : Bool)
    {p : Dim → Int ⊕ X2} (hp : InDom (connA A2 B) p) (h2 : TwoEnds p) :
    ((∃ part ∈ sections (connA A2 B) allDims .srcPeers .dstPeers .protocols tcpVal nonTcpVal (real reg nm) len istio h, ∃ l ∈ part.2,
      Tells (connA A2 B) (connWf W2 B) .srcPeers .dstPeers .protocols tcpVal nonTcpVal (real reg nm) .dstPorts part.1 l p) ↔ S p) ∧
    (∀ part ∈ sections (connA A2 B) allDims .srcPeers .dstPeers .protocols tcpVal nonTcpVal (real reg nm) len istio h,
      (∃ l ∈ part.2, Tells (connA A2 B) (connWf W2 B) .srcPeers .dstPeers .protocols tcpVal nonTcpVal (real reg nm) .dstPorts part.1 l p) ↔
        S p ∧ Of (connA A2 B) .protocols tcpVal nonTcpVal part.1 p) := by
  have hn := (Base.C22_registry hreg).1
  exact list_exact (connA_lawful B L2) allDims_nodup allDims_ne (by decide) tcp_wf tcp_parts (real_covers hn hr (Or.inl rfl))
    (real_covers hn hr (Or.inr rfl)) (real_distinct hr hg (Or.inl rfl)) (real_distinct hr hg (Or.inr rfl)) .dstPorts hS hs istio hp
    (real_apart hn hr hg true h2)

/-- C70 for the connection sets and peers of the program: in the plain list, whole or in two parts, a connection between
two different peers, not both of them addresses, is told exactly if the connectivity has it, and by the part of its
protocol; addresses are written as ranges.  Partial as C70_list_partial: names are distinct. -/
theorem C70_program_partial (L2 : A2.Lawful W2) (hreg : Base.Reach reg) (hr : Registered reg B) (hg : GoodNames reg nm)
    {len : List (List (Dim × (ISet ⊕ V2))) → Nat} {h : HC Dim (ISet ⊕ V2)} {S : (Dim → Int ⊕ X2) → Prop}
    (H : HC.Hist (connA A2 B) (connWf W2 B) allDims false h S) (hs : HcStrong (connA A2 B) (connWf W2 B) allDims h) (istio : Bool)
    {p : Dim → Int ⊕ X2} (hp : InDom (connA A2 B) p) (h2 : TwoEnds p) :
    ((∃ part ∈ sections (connA A2 B) allDims .srcPeers .dstPeers .protocols tcpVal nonTcpVal (real reg nm) len istio h, ∃ l ∈ part.2,
      Tells (connA A2 B) (connWf W2 B) .srcPeers .dstPeers .protocols tcpVal nonTcpVal (real reg nm) .dstPorts part.1 l p) ↔ S p) ∧
    (∀ part ∈ sections (connA A2 B) allDims .srcPeers .dstPeers .protocols tcpVal nonTcpVal (real reg nm) len istio h,
      (∃ l ∈ part.2, Tells (connA A2 B) (connWf W2 B) .srcPeers .dstPeers .protocols tcpVal nonTcpVal (real reg nm) .dstPorts part.1 l p) ↔
        S p ∧ Of (connA A2 B) .protocols tcpVal nonTcpVal part.1 p) :=
  program_exact L2 hreg hr hg (H.spec (connA_lawful B L2) allDims_nodup allDims_ne).2.1 hs istio hp h2

/-- A name with a letter that no text of addresses has, as `[` in the names of workloads, cannot be read as addresses. -/
theorem not_addresses {t : List Char} {c : Char} (hc : c ∈ t) (h : c ∉ ',' :: '.' :: ':' :: '-' :: '/' :: addrChars) (he : t ≠ "Empty".toList)
    (S : Ip → Prop) : ¬ BlockText t S := by
  rintro (⟨rfl, -⟩ | ⟨ps, rfl, hp, -⟩)
  · exact he rfl
  · rcases mem_join hc with rfl | ⟨w, hw, hcw⟩
    · exact h (by simp)
    · obtain ⟨q, hq, rfl⟩ := List.mem_map.1 hw
      exact h (List.mem_cons_of_mem _ ((piece_chars (hp q hq)).2 c hcw))

/-- The domain that a query sets has registered peers only. -/
theorem registered_of_query (hreg : Base.Reach reg) {P : PeerSet κ} (hP : P.Ok) (h : Base.toIndices reg P = some B.idx) : Registered reg B := by
  intro z hz hle
  rcases (Base.C22_to_indices_exact hreg hP h).2.2.2 z hz with ⟨x, rfl⟩ | ⟨n, hn, rfl⟩
  · have := Base.idx_lt x; omega
  · omega

/-- C70: no line of a list is about a workload and itself. -/
theorem C70_list_no_self {D V X σ : Type} [DecidableEq D] {A : VAlg D V X} {all : List D} {srcD dstD protD : D} {tcp nonTcp : V} [DecidableEq σ]
    {N : Named V X σ} {len : List (List (D × V)) → Nat} {istio : Bool} {h : HC D V}
    {part : _} (hp : part ∈ sections A all srcD dstD protD tcp nonTcp N len istio h) {l : Line D V} (hl : l ∈ part.2) : l.src ≠ l.dst := by
  unfold sections at hp
  cases istio
  · simp only [Bool.false_eq_true, if_false, List.mem_singleton] at hp
    subst hp
    exact (C70_no_self hl).2 rfl
  · simp only [if_true, List.mem_cons, List.not_mem_nil, or_false] at hp
    rcases hp with rfl | rfl
    · exact (C70_no_self hl).2 rfl
    · exact (C70_no_self hl).2 rfl

end
end Verif.PlainList
