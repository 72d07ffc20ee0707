import Verif.Model.LsaWire
/-
The formats of src/lsa/lsa.hpp:38-46, src/lsa/adj-lsa.hpp:36-42, src/lsa/name-lsa.hpp:35-41, src/lsa/coordinate-lsa.hpp:35-48,
src/adjacent.hpp:38-45, src/route/nexthop.hpp:38-43, src/route/routing-table-entry.hpp:33-38, src/route/routing-table.hpp:38-42 as relations
between octets and what they stand for, written without the decoders.
-/
namespace Nlsr.Gram
open Tlv Wire

/-- A TLV number: one octet below 253, or 253, 254, 255 and then 2, 4, 8 octets. -/
def Var (n : Nat) (b : Bytes) : Prop :=
  (n < 253 ∧ b = [UInt8.ofNat n]) ∨
  ∃ (h : UInt8) (k : Nat) (w : Bytes), (h, k) ∈ [((253 : UInt8), 2), (254, 4), (255, 8)] ∧ b = h :: w ∧ w.length = k ∧ fromBe w = n

/-- `b` is the sequence of these elements: type, length, value. -/
inductive Tlvs : List Elem → Bytes → Prop
  | nil : Tlvs [] []
  | cons {t : Nat} {v bt bl b : Bytes} {es : List Elem} : 1 ≤ t → t < 2 ^ 32 → Var t bt → Var v.length bl → Tlvs es b →
      Tlvs ((t, v) :: es) (bt ++ bl ++ v ++ b)

/-- The value of a Name element. -/
def IsName (n : Name) (v : Bytes) : Prop := Tlvs (n.map fun c => (c.typ, c.val)) v

/-- A non-negative integer: 1, 2, 4 or 8 octets. -/
def IsNni (n : Nat) (v : Bytes) : Prop := (v.length = 1 ∨ v.length = 2 ∨ v.length = 4 ∨ v.length = 8) ∧ fromBe v = n

/-- A double: 8 octets, or 4 octets of single precision. -/
def IsDouble (f32 : UInt32 → UInt64) (x : UInt64) (v : Bytes) : Prop :=
  (v.length = 8 ∧ x = UInt64.ofNat (fromBe v)) ∨ (v.length = 4 ∧ x = f32 (UInt32.ofNat (fromBe v)))

/-- Lsa: origin router, sequence number, expiration time, and then anything. -/
def BaseFmt (C : Codec) (x : WBase) (v : Bytes) : Prop :=
  ∃ nv sv tv more, Tlvs ((7, nv) :: (130, sv) :: (139, tv) :: more) v ∧ IsName x.origin nv ∧ IsNni x.seq sv ∧ C.timeFrom tv = some x.exp

/-- Adjacency: name, face URI, link cost, and then anything. -/
def AdjFmt (C : Codec) (a : WAdj) (v : Bytes) : Prop :=
  ∃ nv uv cv more, Tlvs ((7, nv) :: (141, uv) :: (140, cv) :: more) v ∧ IsName a.name nv ∧ C.uri uv = some a.uri ∧ IsDouble C.f32 a.cost cv

/-- PrefixInfo: name, cost, and then anything. -/
def PrefixFmt (C : Codec) (p : WPrefix) (v : Bytes) : Prop :=
  ∃ nv cv more, Tlvs ((7, nv) :: (140, cv) :: more) v ∧ IsName p.name nv ∧ IsDouble C.f32 p.cost cv

/-- NextHop: URI, cost, and then anything. -/
def HopFmt (C : RtCodec) (h : NextHop) (v : Bytes) : Prop :=
  ∃ uv cv more x, Tlvs ((141, uv) :: (134, cv) :: more) v ∧ C.uriFrom uv = some h.uri ∧ IsDouble C.f32 x cv ∧ h.cost = C.costFrom x ∧
    h.hyp = false

/-- RoutingTableEntry: name and next hops. -/
def RteFmt (C : RtCodec) (dest : Name) (hops : List (Bytes × NextHop)) (v : Bytes) : Prop :=
  ∃ nv, Tlvs ((7, nv) :: hops.map fun h => (143, h.1)) v ∧ IsName dest nv ∧ ∀ h ∈ hops, HopFmt C h.2 h.1

/-- Of several neighbours of one name the first. -/
def firsts : List WAdj → List WAdj
  | [] => []
  | a :: l => a :: (firsts l).filter fun x => x.name ≠ a.name

/-- `p` is the last prefix of its name in the list. -/
def IsLast (p : WPrefix) (l : List WPrefix) : Prop := ∃ a b, l = a ++ p :: b ∧ ∀ q ∈ b, q.name ≠ p.name

end Nlsr.Gram
