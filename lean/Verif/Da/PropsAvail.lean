import Verif.Da.AvailLemmas
import Verif.Da.Toy
/-! # Availability specifications (C55) -/
namespace Fastroll.Da
open Fastroll.Merkle

/-- **C55, paged proofs.** For any exported segments there is one page of proofs for every 64 segments or
part of 64. Every page fits one segment exactly — the size check of the code never fails — and read back
it gives the leaf hashes of its own segments and a justification leading from them to the segment root. -/
theorem C55_paged_proofs (h : Bytes → Bytes) (hh : ∀ b, (h b).length = 32) (segs : List Bytes)
    (hlen : segs.length < 2 ^ 63) :
    ∃ pages, pagedProofs h segs = .ok pages ∧ pages.length = (segs.length + 63) / 64 ∧
      ∀ page, page < pages.length → ∃ blob just rest, pages[page]? = some blob ∧ blob.length = 4104 ∧
        readPage blob = .ok ((just, pageOf h segs page), rest) ∧
        just.length = (nextPow2 segs.length).log2 - 6 ∧
        PageLeadsTo h segs.length page just (pageOf h segs page) (constantRoot h segs) := by
  obtain ⟨bs, h1, h2, h3⟩ := sequence_ok (pageProof h segs)
    (fun page blob => blob.length = 4104 ∧ ∃ just rest,
      readPage blob = .ok ((just, pageOf h segs page), rest) ∧
        just.length = (nextPow2 segs.length).log2 - 6 ∧
        PageLeadsTo h segs.length page just (pageOf h segs page) (constantRoot h segs))
    (List.range ((segs.length + 2 ^ pageDepth - 1) / 2 ^ pageDepth)) (by
      intro page hp
      have hp := List.mem_range.mp hp
      have hp : 64 * page < segs.length := by
        simp only [pageDepth, show (2 : Nat) ^ 6 = 64 from rfl] at hp
        omega
      have hne : segs ≠ [] := by intro h; subst h; simp at hp
      obtain ⟨blob, rest, a, b, c, _⟩ := pageProof_ok h hh segs hlen page hp
      exact ⟨blob, a, b, _, rest, c, just_length h segs hne page hp, page_leads h segs hne page hp⟩)
  have hl : bs.length = (segs.length + 63) / 64 := by
    rw [h2, List.length_range]
    simp only [pageDepth, show (2 : Nat) ^ 6 = 64 from rfl]
    omega
  refine ⟨bs, h1, hl, ?_⟩
  intro page hp
  obtain ⟨b, e1, _, e2, j, r, e3, e4, e5⟩ := h3 page page (by
    rw [List.getElem?_range (by rw [List.length_range] at h2; omega)])
  exact ⟨b, j, r, e1, e2, e3, e4, e5⟩

/-- 70 segments make two pages. -/
example : ∃ pages, pagedProofs toyHash (List.replicate 70 [7]) = .ok pages ∧ pages.length = 2 := by
  obtain ⟨p, h1, h2, _⟩ := C55_paged_proofs toyHash toyHash_length (List.replicate 70 [7])
    (by rw [List.length_replicate]; decide)
  exact ⟨p, h1, by rw [h2, List.length_replicate]⟩

/-- The strings a reader hashes to check a page of proofs and one segment on it. -/
def pageInputs (h : Bytes → Bytes) (n page : Nat) (just leaves : List Bytes) (seg : Bytes) : List Bytes :=
  (leafPrefix ++ seg) ::
    (verifierInputs h (nextPow2 n) (64 * page) just
        (node h (leaves ++ List.replicate (pageWidth n - leaves.length) zeroHash)) ++
      nodeInputs h (leaves ++ List.replicate (pageWidth n - leaves.length) zeroHash))

/-- **C55, segments are bound.** Suppose a reader is given, for some page, a justification and leaf hashes
of the right sizes that lead to the segment root, and a segment whose leaf hash is at place `j` of the
page. Then it is the exported segment, or the strings hashed in the check show a hash collision. -/
theorem C55_segment_binding (h : Bytes → Bytes) (hh : ∀ b, (h b).length = 32) (segs : List Bytes)
    (page j : Nat) (seg : Bytes) (hseg : segs[64 * page + j]? = some seg) (hj : j < 64)
    (just leaves : List Bytes) (seg' : Bytes) (h32j : ∀ x ∈ just, x.length = 32)
    (h32l : ∀ x ∈ leaves, x.length = 32) (hjl : just.length = (nextPow2 segs.length).log2 - 6)
    (hll : leaves.length = min 64 (segs.length - 64 * page))
    (hacc : PageLeadsTo h segs.length page just leaves (constantRoot h segs))
    (hleaf : leaves[j]? = some (h (leafPrefix ++ seg'))) :
    seg' = seg ∨ Collision h (pageInputs h segs.length page just leaves seg')
      (pageInputs h segs.length page (pageJustification h segs page pageDepth) (pageOf h segs page) seg) := by
  have hlt : 64 * page + j < segs.length := by
    rcases Nat.lt_or_ge (64 * page + j) segs.length with h' | h'
    · exact h'
    · rw [List.getElem?_eq_none h'] at hseg; cases hseg
  have hne : segs ≠ [] := by intro h; subst h; simp at hlt
  have hp : 64 * page < segs.length := by omega
  have hgen := page_leads h segs hne page hp
  have hgl := just_length h segs hne page hp
  have hpl := pageOf_length h segs page
  have h32p : ∀ x ∈ pageOf h segs page, x.length = 32 := by
    intro x hx
    obtain ⟨y, _, rfl⟩ := List.mem_map.mp hx
    exact hh _
  have lens : ∀ (a b : List Bytes), a.length = b.length → (∀ x ∈ a, x.length = 32) → (∀ x ∈ b, x.length = 32) →
      a.map List.length = b.map List.length := by
    intro a b hab ha hb
    rw [List.map_congr_left (g := fun _ => 32) ha, List.map_congr_left (g := fun _ => 32) hb]
    rw [List.map_const', List.map_const', hab]
  have hpad : ∀ x ∈ List.replicate (pageWidth segs.length - leaves.length) zeroHash, x.length = 32 := by
    intro x hx; rw [List.eq_of_mem_replicate hx]; rfl
  unfold PageLeadsTo at hacc hgen
  rw [← hgen] at hacc
  have hw : pageWidth segs.length - leaves.length = pageWidth segs.length - (pageOf h segs page).length := by
    rw [hll, hpl]
  have lnode := lens (leaves ++ List.replicate (pageWidth segs.length - leaves.length) zeroHash)
    (pageOf h segs page ++ List.replicate (pageWidth segs.length - (pageOf h segs page).length) zeroHash)
    (by rw [List.length_append, List.length_append, List.length_replicate, List.length_replicate, hll, hpl])
    (fun x hx => (List.mem_append.mp hx).elim (h32l x) (hpad x))
    (fun x hx => (List.mem_append.mp hx).elim (h32p x) (fun hx => hpad x (hw ▸ hx)))
  rcases openings_agree' h hh just _ _ _ _ _
      (lens just _ (by rw [hjl, hgl]) h32j (just_items h hh segs page pageDepth))
      (node_len_eq h hh _ _ lnode) hacc with ⟨e1, _⟩ | ⟨x, hx, y, hy, hxy⟩
  · rcases node_agree h hh _ _ _ rfl lnode e1 with e2 | ⟨x, hx, y, hy, hxy⟩
    · have e3 : leaves = pageOf h segs page := (List.append_inj e2 (by rw [hll, hpl])).1
      have e4 : (pageOf h segs page)[j]? = some (h (leafPrefix ++ seg)) := by
        unfold pageOf pageOf.slicePage
        rw [List.getElem?_map, List.getElem?_take_of_lt hj, List.getElem?_drop, hseg]
        rfl
      rw [e3, e4] at hleaf
      have e5 := Option.some.inj hleaf
      by_cases e6 : leafPrefix ++ seg' = leafPrefix ++ seg
      · exact .inl (List.append_cancel_left e6)
      · exact .inr ⟨_, List.mem_cons_self, _, List.mem_cons_self, e6, e5.symm⟩
    · exact .inr ⟨x, List.mem_cons_of_mem _ (List.mem_append_right _ hx), y,
        List.mem_cons_of_mem _ (List.mem_append_right _ hy), hxy⟩
  · exact .inr ⟨x, List.mem_cons_of_mem _ (List.mem_append_left _ hx), y,
      List.mem_cons_of_mem _ (List.mem_append_left _ hy), hxy⟩

/-- The genuine page is accepted and shows the genuine segment: three segments on one page. -/
example : PageLeadsTo toyHash 3 0 (pageJustification toyHash [[1], [2], [3]] 0 pageDepth)
    (pageOf toyHash [[1], [2], [3]] 0) (constantRoot toyHash [[1], [2], [3]]) ∧
    (pageOf toyHash [[1], [2], [3]] 0)[2]? = some (toyHash (leafPrefix ++ [3])) :=
  ⟨page_leads toyHash [[1], [2], [3]] (by decide) 0 (by decide), rfl⟩

/-! ## The erasure root -/

theorem zip_shares (h : Bytes → Bytes) (shares : List Share) :
    ((shares.map fun s => h s.bundle).zip (shares.map fun s => balancedRoot h s.segments)).map
      (fun x => x.1 ++ x.2) = shares.map (Share.leaf h) := by
  induction shares with
  | nil => rfl
  | cons s l ih => simp only [List.map_cons, List.zip_cons_cons, ih, Share.leaf]

/-- **C55, erasure root.** The erasure root of a bundle and its exported segments is the root over the
validators' shares: everything — the padded bundle, each segment, each page of proofs — is cut by the same
code into one chunk per validator, and validator `j`'s leaf is made of the `j`-th chunks of all of them.
Every validator's leaf opens against the root at its own index. -/
theorem C55_erasure_root {rs : RS} {ch : Chain} {n : Nat} (hk : 0 < ch.msgChunks) (hkn : ch.msgChunks ≤ n)
    (ht : ch.totalChunks = n) (hv : ch.validators = n) (hc : 0 < ch.chunkSize) (hm : Mds rs ch.msgChunks n)
    (h : Bytes → Bytes) (hh : ∀ b, (h b).length = 32) (bundle : Bytes) (segs : List Bytes)
    (hlen : segs.length < 2 ^ 63) :
    ∃ padded pages shares, zeroPad ch.chunkSize bundle = some padded ∧ pagedProofs h segs = .ok pages ∧
      IsShares rs ch.msgChunks n padded (segs ++ pages) shares ∧
      erasureRoot rs ch h bundle segs = .ok (balancedRoot h (shares.map (Share.leaf h))) ∧
      (2 ≤ n → ∀ (j : Nat) (s : Share), shares[j]? = some s →
        recompute h n j (trace h (shares.map (Share.leaf h)) j) (s.leaf h) =
          balancedRoot h (shares.map (Share.leaf h))) := by
  obtain ⟨pages, p1, _⟩ := C55_paged_proofs h hh segs hlen
  have hz : ∃ padded, zeroPad ch.chunkSize bundle = some padded := by
    unfold zeroPad
    rw [if_neg (by omega)]
    exact ⟨_, rfl⟩
  obtain ⟨padded, z1⟩ := hz
  have enc : ∀ x, ∃ cs, erasureEncode rs ch.msgChunks n x = .ok cs ∧
      ∃ d, Padded ch.msgChunks x d ∧ IsCoding rs ch.msgChunks n d cs := by
    intro x
    obtain ⟨d, P, h1, h2, h3⟩ := encode_eq hk hkn hm x
    exact ⟨_, h3, d, h1, chunksOf_coding hk hkn hm d P h2⟩
  obtain ⟨bc, b1, bd, b2, b3⟩ := enc padded
  obtain ⟨css, c1, c2, c3⟩ := sequence_ok (erasureEncode rs ch.msgChunks n)
    (fun x cs => ∃ d, Padded ch.msgChunks x d ∧ IsCoding rs ch.msgChunks n d cs) (segs ++ pages)
    (fun x _ => enc x)
  have hcs : ∀ cs ∈ css, cs.length = n := by
    intro cs hcs
    obtain ⟨i, hi⟩ := List.mem_iff_getElem?.mp hcs
    have hlt : i < (segs ++ pages).length := by
      rw [← c2]
      rcases Nat.lt_or_ge i css.length with h' | h'
      · exact h'
      · rw [List.getElem?_eq_none h'] at hi; cases hi
    obtain ⟨b, e1, _, d, _, e2⟩ := c3 i _ (List.getElem?_eq_getElem hlt)
    rw [e1] at hi
    cases hi
    exact e2.1
  have htr := transpose_eq (V := n) css hcs (List.replicate 12 0)
  let shares : List Share := (List.range n).map fun j =>
    { bundle := bc.getD j [], segments := css.map fun cs => cs.getD j [] }
  have getD_range : ∀ (l : List Bytes), l.length = n → ((List.range n).map fun j => l.getD j []) = l := by
    intro l hl
    apply List.ext_getElem
    · simp [hl]
    · intro i h1 h2
      simp [List.getElem?_eq_getElem h2]
  have sb : shares.map Share.bundle = bc := by
    show ((List.range n).map _).map Share.bundle = bc
    rw [List.map_map]
    exact getD_range bc b3.1
  have hlenS : shares.length = n := by simp [shares]
  refine ⟨padded, pages, shares, z1, p1, ⟨hlenS, ?_, ?_, ?_⟩, ?_, ?_⟩
  · exact ⟨bd, b2, by rw [sb]; exact b3⟩
  · intro s hs
    obtain ⟨j, _, rfl⟩ := List.mem_map.mp hs
    rw [List.length_map, c2]
  · intro i x hx
    obtain ⟨cs, e1, _, d, e2, e3⟩ := c3 i x hx
    refine ⟨d, e2, ?_⟩
    have : (shares.map fun s => s.segments.getD i []) = cs := by
      show ((List.range n).map _).map _ = cs
      rw [List.map_map]
      refine Eq.trans ?_ (getD_range cs e3.1)
      apply List.map_congr_left
      intro j _
      simp only [Function.comp, List.getD_eq_getElem?_getD, List.getElem?_map, e1, Option.map_some,
        Option.getD_some]
    rw [this]
    exact e3
  · unfold erasureRoot
    rw [z1]
    simp only []
    rw [ht, b1]
    simp only [Res.bind]
    rw [p1]
    simp only []
    rw [c1]
    simp only []
    rw [hv, ← c2, htr]
    simp only [Res.ok.injEq]
    congr 1
    rw [← zip_shares]
    congr 2
    · rw [← sb, List.map_map]; rfl
    · show _ = ((List.range n).map _).map _
      rw [List.map_map, List.map_map]
      rfl
  · intro h2 j s hs
    have := C06_justification_verifies h (shares.map (Share.leaf h)) j (s.leaf h) (by
      rw [List.getElem?_map, hs]; rfl)
    rw [List.length_map, hlenS] at this
    rw [this]
    unfold balancedRoot
    have hl : (shares.map (Share.leaf h)).length = n := by rw [List.length_map, hlenS]
    match shares.map (Share.leaf h), hl with
    | [], hl => simp at hl; omega
    | [_], hl => simp at hl; omega
    | _ :: _ :: _, _ => rfl

/-- Three validators, two of which suffice. -/
example : ∃ root, erasureRoot toyRS { msgChunks := 2, totalChunks := 3, chunkSize := 4, validators := 3 }
    toyHash [1, 2, 3] [[5], [6]] = .ok root := by
  obtain ⟨_, _, _, _, _, _, h, _⟩ := C55_erasure_root (rs := toyRS)
    (ch := { msgChunks := 2, totalChunks := 3, chunkSize := 4, validators := 3 }) (n := 3)
    (by decide) (by decide) rfl rfl (by decide) toy_mds toyHash toyHash_length [1, 2, 3] [[5], [6]] (by decide)
  exact ⟨_, h⟩

/-- The strings hashed by `balancedRoot`. -/
def balancedInputs (h : Bytes → Bytes) : List Bytes → List Bytes
  | [] => []
  | [x] => [x]
  | l => nodeInputs h l

/-- The strings hashed to check a share against the erasure root. -/
def shareInputs (h : Bytes → Bytes) (n j : Nat) (path : List Bytes) (s : Share) : List Bytes :=
  s.bundle :: (balancedInputs h s.segments ++ verifierInputs h n j path (s.leaf h))

theorem balanced_agree (h : Bytes → Bytes) (hh : ∀ b, (h b).length = 32) (a b : List Bytes)
    (hl : a.map List.length = b.map List.length) (he : balancedRoot h a = balancedRoot h b) :
    a = b ∨ Collision h (balancedInputs h a) (balancedInputs h b) := by
  match a, b with
  | [], [] => exact .inl rfl
  | [x], [y] =>
    by_cases e : x = y
    · exact .inl (by rw [e])
    · exact .inr ⟨x, List.mem_cons_self, y, List.mem_cons_self, e, he⟩
  | [], _ :: _ => simp at hl
  | [_], [] => simp at hl
  | [_], _ :: _ :: _ => simp at hl
  | _ :: _ :: _, [] => simp at hl
  | _ :: _ :: _, [_] => simp at hl
  | _ :: _ :: _, _ :: _ :: _ => exact node_agree h hh _ _ _ rfl hl he

theorem balanced_length (h : Bytes → Bytes) (hh : ∀ b, (h b).length = 32) (a b : List Bytes)
    (hl : a.map List.length = b.map List.length) : (balancedRoot h a).length = (balancedRoot h b).length := by
  match a, b with
  | [], [] => rfl
  | [x], [y] => simp only [balancedRoot, hh]
  | [], _ :: _ => simp at hl
  | [_], [] => simp at hl
  | [_], _ :: _ :: _ => simp at hl
  | _ :: _ :: _, [] => simp at hl
  | _ :: _ :: _, [_] => simp at hl
  | _ :: _ :: _, _ :: _ :: _ => exact node_len_eq h hh _ _ hl

/-- **C55, shares are bound.** Whoever presents a share — a bundle chunk and segment chunks of the right
sizes — with a path of the right sizes accepted against the erasure root at index `j`, presents validator
`j`'s genuine share, or the strings hashed in the check show a hash collision. -/
theorem C55_share_binding (h : Bytes → Bytes) (hh : ∀ b, (h b).length = 32) (shares : List Share)
    (h2 : 2 ≤ shares.length) (j : Nat) (s : Share) (hs : shares[j]? = some s) (s' : Share) (path : List Bytes)
    (hsz : s'.segments.map List.length = s.segments.map List.length)
    (hpath : path.map List.length = (trace h (shares.map (Share.leaf h)) j).map List.length)
    (hacc : recompute h shares.length j path (s'.leaf h) = balancedRoot h (shares.map (Share.leaf h))) :
    s' = s ∨ Collision h (shareInputs h shares.length j path s')
      (shareInputs h shares.length j (trace h (shares.map (Share.leaf h)) j) s) := by
  have hv := C06_justification_verifies h (shares.map (Share.leaf h)) j (s.leaf h) (by
      rw [List.getElem?_map, hs]; rfl)
  rw [List.length_map] at hv
  have hb : balancedRoot h (shares.map (Share.leaf h)) = node h (shares.map (Share.leaf h)) := by
    unfold balancedRoot
    have hl : (shares.map (Share.leaf h)).length = shares.length := List.length_map ..
    match shares.map (Share.leaf h), hl with
    | [], hl => simp at hl; omega
    | [_], hl => simp at hl; omega
    | _ :: _ :: _, _ => rfl
  rw [hb, ← hv] at hacc
  have hbl := balanced_length h hh _ _ hsz
  rcases openings_agree' h hh path _ _ _ _ _ hpath (by
      unfold Share.leaf; rw [List.length_append, List.length_append, hh, hh, hbl]) hacc
    with ⟨e1, _⟩ | ⟨x, hx, y, hy, hxy⟩
  · unfold Share.leaf at e1
    obtain ⟨e2, e3⟩ := List.append_inj e1 (by rw [hh, hh])
    by_cases e4 : s'.bundle = s.bundle
    · rcases balanced_agree h hh _ _ hsz e3 with e5 | ⟨x, hx, y, hy, hxy⟩
      · left
        cases s; cases s'
        simp only at e4 e5
        rw [e4, e5]
      · exact .inr ⟨x, List.mem_cons_of_mem _ (List.mem_append_left _ hx), y,
          List.mem_cons_of_mem _ (List.mem_append_left _ hy), hxy⟩
    · exact .inr ⟨_, List.mem_cons_self, _, List.mem_cons_self, e4, e2⟩
  · exact .inr ⟨x, List.mem_cons_of_mem _ (List.mem_append_right _ hx), y,
      List.mem_cons_of_mem _ (List.mem_append_right _ hy), hxy⟩

/-- Three shares; the second is accepted with its own path. -/
example : ∃ shares : List Share, 2 ≤ shares.length ∧ shares[1]? = some ⟨[2], [[5], [6]]⟩ ∧
    recompute toyHash shares.length 1 (trace toyHash (shares.map (Share.leaf toyHash)) 1)
      ((Share.mk [2] [[5], [6]]).leaf toyHash) = balancedRoot toyHash (shares.map (Share.leaf toyHash)) := by
  refine ⟨[⟨[1], [[3], [4]]⟩, ⟨[2], [[5], [6]]⟩, ⟨[3], [[7], [8]]⟩], by decide, rfl, ?_⟩
  exact C06_justification_verifies toyHash
    ([⟨[1], [[3], [4]]⟩, ⟨[2], [[5], [6]]⟩, ⟨[3], [[7], [8]]⟩].map (Share.leaf toyHash)) 1 _ rfl

/-! ## The specification -/

/-- **C55, specification.** For bundles under `2^32` octets and fewer than `2^16` segments the
specification names the package, the exact bundle length, the erasure root, the segment root and the
exact number of segments. -/
theorem C55_specs {rs : RS} {ch : Chain} {n : Nat} (hk : 0 < ch.msgChunks) (hkn : ch.msgChunks ≤ n)
    (ht : ch.totalChunks = n) (hv : ch.validators = n) (hc : 0 < ch.chunkSize) (hm : Mds rs ch.msgChunks n)
    (h : Bytes → Bytes) (hh : ∀ b, (h b).length = 32) (package bundle : Bytes) (segs : List Bytes)
    (hb : bundle.length < 2 ^ 32) (hs : segs.length < 2 ^ 16) :
    ∃ root, erasureRoot rs ch h bundle segs = .ok root ∧
      buildAvailSpecs rs ch h package bundle segs = .ok { packageHash := h package, bundleLength := bundle.length, erasureRoot := root, segmentRoot := constantRoot h segs, segmentCount := segs.length } := by
  obtain ⟨_, _, _, _, _, _, e, _⟩ := C55_erasure_root hk hkn ht hv hc hm h hh bundle segs
    (Nat.lt_trans hs (by decide))
  refine ⟨_, e, ?_⟩
  unfold buildAvailSpecs
  rw [e]
  simp only [Res.bind, Nat.mod_eq_of_lt hb, Nat.mod_eq_of_lt hs]

example : ∃ root, buildAvailSpecs toyRS { msgChunks := 2, totalChunks := 3, chunkSize := 4, validators := 3 }
    toyHash [9] [1, 2, 3] [[5], [6]] = .ok { packageHash := toyHash [9], bundleLength := 3, erasureRoot := root, segmentRoot := constantRoot toyHash [[5], [6]], segmentCount := 2 } := by
  obtain ⟨r, _, h⟩ := C55_specs (rs := toyRS)
    (ch := { msgChunks := 2, totalChunks := 3, chunkSize := 4, validators := 3 }) (n := 3)
    (by decide) (by decide) rfl rfl (by decide) toy_mds toyHash toyHash_length [9] [1, 2, 3] [[5], [6]]
    (by decide) (by decide)
  exact ⟨r, h⟩

/-- **C55, specification (negation).** Nothing refuses more segments than the 16-bit count can hold: the
specification of `2^16` exported segments says there are none. -/
theorem C55_count_wraps (rs : RS) (ch : Chain) (h : Bytes → Bytes) (package bundle : Bytes)
    (segs : List Bytes) (hs : segs.length = 2 ^ 16) (s : Wire.AvailSpecs)
    (e : buildAvailSpecs rs ch h package bundle segs = .ok s) : s.segmentCount = 0 := by
  unfold buildAvailSpecs at e
  cases he : erasureRoot rs ch h bundle segs with
  | ok r =>
    rw [he] at e
    simp only [Res.bind] at e
    injection e with e
    rw [← e]
    simp only []
    rw [hs]
  | _ => rw [he] at e; cases e

end Fastroll.Da
