import Verif.Mach.Read
set_option autoImplicit false
namespace Smlr.Mach
open Smlr.Sect (Bytes str Sec Desc Cfg St Place contents Inv)
open Smlr.Exe

theorem str_ok : (str "__PAGEZERO").length ≤ 16 ∧ (0 : UInt8) ∉ str "__PAGEZERO" ∧ (str "__TEXT").length ≤ 16 ∧ (0 : UInt8) ∉ str "__TEXT" ∧ (str "__DATA").length ≤ 16 ∧ (0 : UInt8) ∉ str "__DATA" ∧
    (str "__LINKEDIT").length ≤ 16 ∧ (0 : UInt8) ∉ str "__LINKEDIT" ∧ (str "__text").length ≤ 16 ∧ (str "__data").length ≤ 16 := by decide +kernel

theorem link_len (a b : Nat) : (linkCmd a b).length = 80 := by
  unfold linkCmd
  rw [List.length_append, segCmd_len _ _ _ _ _ _ _ _ str_ok.2.2.2.2.2.2.1]
  rfl

theorem thread_len (e : Nat) : (threadCmd e).length = 80 := rfl

theorem zero_len (b : Nat) : (zeroCmd b).length = (b != 0).toNat * 56 := by
  unfold zeroCmd
  split
  · rename_i h
    rw [h, segCmd_len _ _ _ _ _ _ _ _ str_ok.1]
    rfl
  · rename_i h
    rw [Bool.eq_false_iff.2 h]
    rfl

theorem sect1_len (n s t : Bytes) (a b c d e g a' b' c' d' : Nat) (h1 : n.length ≤ 16) (h2 : s.length ≤ 16) (h3 : t.length ≤ 16) :
    (segCmd n 1 a b c d e g ++ sectHdr s t a' b' c' d').length = 124 := by
  rw [List.length_append, segCmd_len _ _ _ _ _ _ _ _ h1, sectHdr_len _ _ _ _ _ _ h2 h3]

/-- the segment __LINKEDIT -/
def linkSeg (f : Bytes) (S V : Nat) : MSeg := ⟨⟨V, (f.drop S).take 52 ++ List.replicate (4096 - 52) 0, true, false, false⟩, str "__LINKEDIT", S, 52⟩

/-- the commands after the segments -/
theorem tail_ok (f : Bytes) (o S V e b : Nat) (rest : Bytes) (h : f.drop o = linkCmd S V ++ (threadCmd e ++ rest)) (hS : f.drop S = nlist 2 3 1 0x10 b ++ (nlist 22 15 1 0 e ++ strings))
    (hl : f.length = S + 52) (hb : b < 2 ^ 32) (he : e < 2 ^ 32) (hS' : S + 52 < 2 ^ 32) (hS4 : S % 4096 = 0) (hV : V % 4096 = 0) (hV' : V + 4096 ≤ 2 ^ 32) :
    commands f (o + 160) 3 o = some ⟨[e], [linkSeg f S V], [(symsOf b e, S, S + 52)]⟩ := by
  have h' : f.drop o = segCmd (str "__LINKEDIT") 0 V 0x1000 S 52 7 1 ++ (symtabCmd S 2 (S + 2 * 12) 28 ++ (threadCmd e ++ rest)) := by
    rw [h]
    unfold linkCmd
    rw [List.append_assoc]
  have h1 := drop_step f _ _ o 56 h' (segCmd_len _ _ _ _ _ _ _ _ str_ok.2.2.2.2.2.2.1)
  have h2 := drop_step f _ _ (o + 56) 24 h1 rfl
  obtain ⟨t1, t2⟩ := command_thread f (o + 56 + 24) e rest ⟨[], [], []⟩ h2
  rw [Nat.mod_eq_of_lt he] at t2
  obtain ⟨s0, s1, s2⟩ := symtab_ok f (o + 56) S b e _ h1 hS hb he hS' hl
  obtain ⟨l0, l1, -⟩ := seg_read f o _ 0 V 0x1000 S 52 7 1 _ h' str_ok.2.2.2.2.2.2.1 str_ok.2.2.2.2.2.2.2.1 (by omega)
  have l2 := segment_plain f o _ V 0x1000 S 52 7 1 _ h' str_ok.2.2.2.2.2.2.1 str_ok.2.2.2.2.2.2.2.1 hV (by decide) hS4 (by decide) (by omega) hV' (by decide) (by decide) (by omega) (by decide) (by decide) (by omega)
  have c1 : commands f (o + 160) 1 (o + 56 + 24) = some ⟨[e], [], []⟩ :=
    step f (o + 160) 0 (o + 56 + 24) 80 _ _ t1 (by decide) (by decide) (by omega) (by unfold commands; rw [if_pos rfl]) t2
  have c2 := step f (o + 160) 1 (o + 56) 24 _ _ s1 (by decide) (by decide) (by omega) c1 (command_sym f (o + 56) _ _ s0 s2)
  exact step f (o + 160) 2 o 56 _ _ l1 (by decide) (by decide) (by omega) c2 (command_seg f o _ _ l0 l2)

/-- a segment with a section before other commands -/
theorem sect_step (f : Bytes) (en n o : Nat) (l : Loaded) (name sn sg : Bytes) (va vs fo fs ip sa sz so fl : Nat) (rest : Bytes)
    (hd : f.drop o = (segCmd name 1 va vs fo fs 7 ip ++ sectHdr sn sg sa sz so fl) ++ rest) (hn : name.length ≤ 16)
    (h0 : (0 : UInt8) ∉ name) (h1 : va % 4096 = 0) (h2 : vs % 4096 = 0) (h3 : fo % 4096 = 0) (h4 : fs ≤ vs) (h5 : fo + fs ≤ f.length) (h6 : va + vs ≤ 2 ^ 32) (h7 : ip &&& 7 = ip)
    (b1 : vs < 2 ^ 32) (b2 : fo < 2 ^ 32) (b4 : ip < 8) (b5 : va < 2 ^ 32) (hsn : sn.length ≤ 16) (hsg : sg.length ≤ 16) (b6 : sa < 2 ^ 32) (b7 : sz < 2 ^ 32) (b8 : so < 2 ^ 32)
    (g1 : va ≤ sa) (g2 : sa + sz ≤ va + vs) (g3 : fo ≤ so) (g4 : so + sz ≤ fo + fs) (g5 : sa - va = so - fo) (hc : commands f en n (o + 124) = some l) (hen : o + 124 ≤ en) :
    commands f en (n + 1) o = some { l with segs := ⟨⟨va, (f.drop fo).take fs ++ List.replicate (vs - fs) 0, ip % 2 = 1, ip / 2 % 2 = 1, ip / 4 % 2 = 1⟩, name, fo, fs⟩ :: l.segs } := by
  rw [List.append_assoc] at hd
  obtain ⟨l0, l1, -⟩ := seg_read f o name 1 va vs fo fs 7 ip _ hd hn h0 (by omega)
  have l2 := segment_sect f o name sn sg va vs fo fs 7 ip sa sz so fl rest hd hn h0 h1 h2 h3 h4 h5 h6 h7 b1 b2 (by decide) (by omega) b5 hsn hsg b6 b7 b8 g1 g2 g3 g4 g5
  exact step f en n o 124 _ _ l1 (by decide) (by decide) hen hc (command_seg f o _ _ l0 l2)

/-- the segment __PAGEZERO -/
def zeroSeg (f : Bytes) (b : Nat) : List MSeg := if b != 0 then [⟨⟨0, (f.drop 0).take 0 ++ List.replicate (b - 0) 0, false, false, false⟩, str "__PAGEZERO", 0, 0⟩] else []

theorem zero_step (f : Bytes) (en n o b : Nat) (l : Loaded) (rest : Bytes) (hd : f.drop o = zeroCmd b ++ rest) (hb : b < 2 ^ 32) (hb' : b % 4096 = 0)
    (hc : commands f en n (o + (b != 0).toNat * 56) = some l) (hen : o + (b != 0).toNat * 56 ≤ en) : commands f en ((b != 0).toNat + n) o = some { l with segs := zeroSeg f b ++ l.segs } := by
  unfold zeroCmd at hd
  unfold zeroSeg
  cases hz : (b != 0) with
  | false =>
    rw [hz] at hc
    simpa using hc
  | true =>
    rw [hz] at hd hc hen
    simp only [if_true] at hd
    obtain ⟨l0, l1, -⟩ := seg_read f o _ 0 0 b 0 0 0 0 _ hd str_ok.1 str_ok.2.1 (by omega)
    have l2 := segment_plain f o _ 0 b 0 0 0 0 _ hd str_ok.1 str_ok.2.1 rfl hb' rfl (by omega) (by omega) (by omega) (by decide) hb (by omega) (by omega) (by omega) (by omega)
    rw [show true.toNat + n = n + 1 from Nat.add_comm 1 n]
    exact step f en n o 56 _ _ l1 (by decide) (by decide) hen hc (command_seg f o _ _ l0 l2)

/-- the header -/
theorem load_ok (f : Bytes) (n sz : Nat) (rest : Bytes) (l : Loaded) (hf : f = header n sz ++ rest) (hn : n < 2 ^ 32) (hsz : sz < 2 ^ 32) (hl : sz ≤ rest.length) (hc : commands f (28 + sz) n 28 = some l) : load f = some l := by
  have h : u32 f 0 = 0xFEEDFACE ∧ u32 f 4 = 7 ∧ u32 f 8 = 3 ∧ u32 f 12 = 2 ∧ u32 f 16 = n ∧ u32 f 20 = sz := by
    rw [hf]
    unfold header
    simp only [List.append_assoc, u32_skip32, u32_zero]
    refine ⟨by decide, by decide, by decide, by decide, Nat.mod_eq_of_lt hn, Nat.mod_eq_of_lt hsz⟩
  obtain ⟨h1, h2, h3, h4, h5, h6⟩ := h
  have h7 : 28 + u32 f 20 ≤ f.length := by
    have : (header n sz).length = 28 := rfl
    rw [h6, hf, List.length_append]
    omega
  unfold load
  rw [if_pos ⟨h1, h2, h3, h4, h7⟩, h5, h6, hc]

def textSeg (f : Bytes) (b A : Nat) : MSeg := ⟨⟨b, (f.drop 0).take (A - b) ++ List.replicate (A - b - (A - b)) 0, true, false, true⟩, str "__TEXT", 0, A - b⟩

def dataSeg (f : Bytes) (data : Bool) (b A S V : Nat) : List MSeg :=
  if data then [⟨⟨A, (f.drop (A - b)).take (S - (A - b)) ++ List.replicate (V - A - (S - (A - b))) 0, true, true, false⟩, str "__DATA", A - b, S - (A - b)⟩] else []

def dataBytes (data : Bool) (b A S V : Nat) : Bytes :=
  if data then segCmd (str "__DATA") 1 A (V - A) (A - b) (S - (A - b)) 7 3 ++ sectHdr (str "__data") (str "__DATA") A (S - (A - b)) (A - b) 0 else []

theorem dataBytes_len (data : Bool) (b A S V : Nat) : (dataBytes data b A S V).length = data.toNat * 124 := by
  unfold dataBytes
  cases data with
  | false => rfl
  | true => exact sect1_len _ _ _ _ _ _ _ _ _ _ _ _ _ str_ok.2.2.2.2.1 str_ok.2.2.2.2.2.2.2.2.2 str_ok.2.2.2.2.1

/-- the load commands of a file -/
def cmdBytes (data : Bool) (b A H S V e : Nat) : Bytes :=
  zeroCmd b ++ ((segCmd (str "__TEXT") 1 b (A - b) 0 (A - b) 7 5 ++ sectHdr (str "__text") (str "__TEXT") (b + H) (A - (b + H)) H 0x80000400) ++ (dataBytes data b A S V ++ (linkCmd S V ++ threadCmd e)))

theorem cmdBytes_len (data : Bool) (b A H S V e : Nat) : (cmdBytes data b A H S V e).length = cmdsSize (b != 0) data := by
  unfold cmdBytes cmdsSize
  simp only [List.length_append, zero_len, dataBytes_len, link_len, thread_len]
  rw [segCmd_len _ _ _ _ _ _ _ _ str_ok.2.2.1, sectHdr_len _ _ _ _ _ _ str_ok.2.2.2.2.2.2.2.2.1 str_ok.2.2.1]
  omega

/-- how a file is loaded -/
theorem file_ok (f out : Bytes) (data : Bool) (b A H S V e n sz : Nat) (hn : n = (b != 0).toNat + 4 + data.toNat) (hsz : sz = cmdsSize (b != 0) data) (hH : H = 28 + sz)
    (hf : f = header n sz ++ cmdBytes data b A H S V e ++ out ++ (nlist 2 3 1 0x10 b ++ (nlist 22 15 1 0 e ++ strings)))
    (hS : S = H + out.length) (hb : b % 4096 = 0) (hA : A % 4096 = 0) (hSm : S % 4096 = 0) (hV : V % 4096 = 0) (h1 : b + H ≤ A) (h2 : A - b ≤ S) (h3 : A ≤ V) (h4 : b + S ≤ V) (h5 : V + 4096 ≤ 2 ^ 32)
    (he : e < 2 ^ 32) :
    load f = some ⟨[e], zeroSeg f b ++ (textSeg f b A :: (dataSeg f data b A S V ++ [linkSeg f S V])), [(symsOf b e, S, S + 52)]⟩ := by
  obtain ⟨s1, s2, s3, s4, s5, s6, s7, s8, s9, s10⟩ := str_ok
  have hcl := cmdBytes_len data b A H S V e
  rw [← hsz] at hcl
  have hhl : (header n sz).length = 28 := rfl
  have hlen : f.length = S + 52 := by
    rw [hf]
    simp only [List.length_append, hcl, hhl]
    have : (nlist 2 3 1 0x10 b).length + ((nlist 22 15 1 0 e).length + strings.length) = 52 := by
      have : strings.length = 28 := by decide +kernel
      rw [this]
      rfl
    omega
  have hsz' : sz = (b != 0).toNat * 56 + (124 + (data.toNat * 124 + 160)) := by
    rw [hsz]
    unfold cmdsSize
    omega
  have d0 : f.drop 28 = cmdBytes data b A H S V e ++ (out ++ (nlist 2 3 1 0x10 b ++ (nlist 22 15 1 0 e ++ strings))) := by
    apply drop_step f (header n sz) _ 0 28 _ hhl
    rw [hf]
    simp only [List.drop_zero, List.append_assoc]
  have dS : f.drop S = nlist 2 3 1 0x10 b ++ (nlist 22 15 1 0 e ++ strings) := by
    have := drop_step f (header n sz ++ cmdBytes data b A H S V e ++ out) _ 0 S (by rw [hf]; rfl) (by simp only [List.length_append, hcl, hhl]; omega)
    rwa [Nat.zero_add] at this
  have d0' : f.drop 28 = zeroCmd b ++ ((segCmd (str "__TEXT") 1 b (A - b) 0 (A - b) 7 5 ++ sectHdr (str "__text") (str "__TEXT") (b + H) (A - (b + H)) H 0x80000400) ++
      (dataBytes data b A S V ++ (linkCmd S V ++ (threadCmd e ++ (out ++ (nlist 2 3 1 0x10 b ++ (nlist 22 15 1 0 e ++ strings))))))) := by
    rw [d0]
    unfold cmdBytes
    simp only [List.append_assoc]
  have d1 := drop_step f _ _ 28 _ d0' (zero_len b)
  have d2 := drop_step f _ _ _ 124 d1 (sect1_len _ _ _ _ _ _ _ _ _ _ _ _ _ s3 s9 s3)
  have d3 := drop_step f _ _ _ _ d2 (dataBytes_len data b A S V)
  have c3 := tail_ok f _ S V e b _ d3 dS hlen (by omega) he (by omega) hSm hV h5
  have hen : 28 + (b != 0).toNat * 56 + 124 + data.toNat * 124 + 160 = 28 + sz := by omega
  rw [hen] at c3
  have c2 : commands f (28 + sz) (data.toNat + 3) (28 + (b != 0).toNat * 56 + 124) = some ⟨[e], dataSeg f data b A S V ++ [linkSeg f S V], [(symsOf b e, S, S + 52)]⟩ := by
    cases hd : data with
    | false =>
      rw [hd] at c3
      simpa [dataSeg] using c3
    | true =>
      rw [hd] at c3 d2
      have := sect_step f (28 + sz) 3 _ _ (str "__DATA") (str "__data") (str "__DATA") A (V - A) (A - b) (S - (A - b)) 3 A (S - (A - b)) (A - b) 0 _ d2 s5 s6 hA (by omega) (by omega) (by omega) (by omega) (by omega)
        (by decide) (by omega) (by omega) (by omega) (by omega) s10 s5 (by omega) (by omega) (by omega) (by omega) (by omega) (by omega) (by omega) (by omega) c3 (by rw [hd] at hsz'; simp only [Bool.toNat_true] at hsz'; omega)
      exact this
  have c1 := sect_step f (28 + sz) _ _ _ (str "__TEXT") (str "__text") (str "__TEXT") b (A - b) 0 (A - b) 5 (b + H) (A - (b + H)) H _ _ d1 s3 s4 hb (by omega) (by omega) (by omega) (by omega) (by omega)
    (by decide) (by omega) (by omega) (by omega) (by omega) s9 s3 (by omega) (by omega) (by omega) (by omega) (by omega) (by omega) (by omega) (by omega) c2 (by omega)
  have c0 := zero_step f (28 + sz) _ 28 b _ _ d0' (by omega) hb c1 (by omega)
  refine load_ok f n sz _ _ (by rw [hf]; simp only [List.append_assoc]; rfl) ?_ ?_ ?_ ?_
  · rw [hn]
    have := Bool.toNat_le (b != 0)
    have := Bool.toNat_le data
    omega
  · omega
  · rw [← hcl]
    simp only [List.length_append]
    omega
  · rw [hn, show (b != 0).toNat + 4 + data.toNat = (b != 0).toNat + (data.toNat + 3 + 1) by omega]
    exact c0

/-- a section of the file in a segment; `tl` follows what `Pass` writes -/
theorem holds_file (c : Cfg) (st : St) (ph : Bool) (hi : Inv c ph st) (hns : c.fmt ≠ .dosExeSmall) (base H : Nat) (hb : c.origin = base + H) (hdr tl : Bytes) (hh : hdr.length = H)
    (z : Bytes) (S fs : Nat) (r w x : Bool) (hS : base ≤ S) (hlen : S - base + fs ≤ H + st.out.length) (p : Place) (hp : p ∈ st.placed) (hf : FileA c p.sec.attrs)
    (hl : (contents p.sec).length = p.sec.size) (h1 : S ≤ p.addr) (h2 : fin p ≤ S + fs) :
    Seg.Holds ⟨S, ((hdr ++ st.out ++ tl).drop (S - base)).take fs ++ z, r, w, x⟩ p.addr (contents p.sec) := by
  obtain ⟨f1, f2, f3⟩ := in_file c st ph hi hns p hp hf hl
  unfold fin at h2
  have he : ((hdr ++ st.out ++ tl).drop (S - base)).take fs = ((hdr ++ st.out).drop (S - base)).take fs := by
    rw [List.drop_append_of_le_length (by rw [List.length_append]; omega), List.take_append_of_le_length (by rw [List.length_drop, List.length_append]; omega)]
  rw [he]
  refine ⟨h1, ?_, ?_⟩
  · simp only [List.length_append, List.length_take, List.length_drop]
    omega
  · apply seg_file hdr st.out z (contents p.sec) H (S - base) fs (p.addr - c.origin) (p.addr - S) hh
    · omega
    · omega
    · exact f2
    · exact f3

theorem collect_eq (c c' : Cfg) (h : c.fmt = c'.fmt) (ss : List Sec) : ∀ ds, Sect.collect c ss ds = Sect.collect c' ss ds := by
  induction ss with
  | nil => intro ds; rfl
  | cons s ss ih =>
    intro ds
    unfold Sect.collect
    simp only [ih, h]

theorem findAll_eq (c c' : Cfg) (h : c.fmt = c'.fmt) (h' : c.relod = c'.relod) (sort : List Desc → List Desc) (ss : List Sec) : Sect.findAll c sort ss = Sect.findAll c' sort ss := by
  unfold Sect.findAll
  rw [collect_eq c c' h]
  have : Sect.addRelod c = Sect.addRelod c' := by
    funext ds
    unfold Sect.addRelod
    rw [h, h']
  rw [this]

end Smlr.Mach
