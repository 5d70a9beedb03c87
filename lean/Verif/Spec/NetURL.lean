import Verif.Model.NetURL

/-! # Component tuples which can be written without escapes -/

namespace Verif.Spec.NetURL
open Verif.URI

/-- No port, or a colon and digits. -/
def PortText (d : List Char) : Prop := d = [] ∨ ∃ ds, d = ':' :: ds ∧ ∀ x ∈ ds, x.isDigit = true

/-- A host with an optional port: the host stands in brackets, or has a colon only if a port follows. -/
def HostText (t : List Char) : Prop :=
  ∃ a d, t = a ++ d ∧ PortText d ∧
    ((a.head? = some '[' ∧ a.getLast? = some ']') ∨ (a.head? ≠ some '[' ∧ (d = [] → ':' ∉ a)))

def noAuthority (c : Comps) : Prop := c.username = [] ∧ c.password = [] ∧ c.host = [] ∧ c.port = []

instance (c : Comps) : Decidable (noAuthority c) := inferInstanceAs (Decidable (_ ∧ _))

/-- The text `host:port` of an authority. -/
def hostPort (c : Comps) : List Char := c.host ++ if c.port = [] then [] else ':' :: c.port

/-- Tuples of components which need no escape: the characters of every component are allowed there, none is a separator, and what
follows a missing part is not read as this part. -/
structure Clean (c : Comps) : Prop where
  /-- a lower case letter, then lower case letters, digits and `+-.` -/
  scheme : (∀ x ∈ c.scheme, x.isLower = true ∨ x.isDigit = true ∨ x ∈ ['+', '-', '.']) ∧ ∀ x, c.scheme.head? = some x → x.isLower = true
  username : ∀ x ∈ c.username, x.isAlphanum = true ∨ x ∈ "-._~!$&'()*+,;=@".toList
  password : ∀ x ∈ c.password, x.isAlphanum = true ∨ x ∈ "-._:~!$&'()*+,;=@".toList
  host : ∀ x ∈ hostPort c, 0x80 ≤ x.toNat ∨ x.isAlphanum = true ∨ x ∈ "-_.~!$&'()*+,;=:[]<>\"".toList
  hostText : HostText (hostPort c)
  noColon : ':' ∉ c.host
  path : ∀ x ∈ c.path, x ∉ ['?', '#', '%'] ∧ 0x20 ≤ x.toNat ∧ x.toNat ≠ 0x7f
  query : ∀ x ∈ c.query, x ≠ '#' ∧ 0x20 ≤ x.toNat ∧ x.toNat ≠ 0x7f
  fragment : '%' ∉ c.fragment
  /-- after an authority the path is empty or absolute -/
  afterAuthority : ¬ noAuthority c → c.path = [] ∨ c.path.head? = some '/'
  /-- without authority the path does not begin with `//`, except for `///` without a scheme -/
  noAuthority : noAuthority c → c.path.take 2 = ['/', '/'] → c.scheme = [] ∧ c.path.take 3 = ['/', '/', '/']
  /-- without scheme and authority the first segment of the path has no colon -/
  noScheme : c.scheme = [] → NetURL.noAuthority c → ':' ∉ c.path.takeWhile (· ≠ '/')

/-- The URIs a program gets from texts without `%` and from clean tuples, by the operations on URIs. Parsed texts whose path begins
with `//` behind an empty authority are left out, and so are references of this kind in Resolve. -/
inductive Derived : URI → Prop where
  | parsed {raw c} : '%' ∉ raw → Verif.NetURL.netParse raw = some c → (noAuthority c → c.path.take 2 ≠ ['/', '/']) → Derived { c with raw := raw }
  | built {c} : Clean c → Derived (mk c)
  | trimFragment {u} : Derived u → Derived (Verif.URI.trimFragment u)
  | trimQuery {u} : Derived u → Derived (Verif.URI.trimQuery u)
  | normalized {u v} : Derived u → normalizeURI u = some v → Derived v
  | resolved {u ref v} : Derived u → Derived ref → ref.path.take 2 ≠ ['/', '/'] → resolveURI u ref = some v → Derived v

/-- The parts of a URI. -/
inductive Part where
  | scheme | username | password | host | port | path | query | fragment
  deriving DecidableEq, Repr

def get (c : Comps) : Part → List Char
  | .scheme => c.scheme | .username => c.username | .password => c.password | .host => c.host
  | .port => c.port | .path => c.path | .query => c.query | .fragment => c.fragment

/-- What a setter sets. -/
def sets : Verif.NetURL.Setter → Part × List Char
  | .scheme s => (.scheme, s) | .username s => (.username, s) | .password s => (.password, s) | .host s => (.host, s)
  | .port s => (.port, s) | .path s => (.path, s) | .query s => (.query, s) | .fragment s => (.fragment, s)
  | .clearQuery => (.query, []) | .clearFragment => (.fragment, [])

end Verif.Spec.NetURL
