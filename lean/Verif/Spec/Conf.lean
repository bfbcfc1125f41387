import Verif.Model.Conf
import Verif.Spec.Names

/-! # What the servers need of a configuration -/

namespace Ariadne.Spec

open Conf

/-- Threads and time-outs of the two servers: a pool needs a thread, a time-out must not be zero. -/
structure ServersUsable (udp : Udp) (tcp : Tcp) : Prop where
  udpThreads : udp.threads ≠ 0
  udpWrite : udp.writeTimeout ≠ 0
  tcpThreads : tcp.threads ≠ 0
  tcpRead : tcp.readTimeout ≠ 0
  tcpWrite : tcp.writeTimeout ≠ 0

/-- For the name server also: valid names of zones. -/
structure NsUsable (c : NsConf) : Prop where
  servers : ServersUsable c.udp c.tcp
  zone : ValidName c.zone.zone
  subZones : ∀ s ∈ c.zone.subZones, ValidName s.zone

/-- For the resolver also: limits, time-outs and cache parameters that are not zero. -/
structure ResUsable (c : ResConf) : Prop where
  servers : ServersUsable c.udp c.tcp
  nsQueried : c.resolver.maxNsQueried ≠ 0
  nsRetries : c.resolver.maxNsRetries ≠ 0
  cnameRedir : c.resolver.maxCnameRedir ≠ 0
  read : c.resolver.readTimeout ≠ 0
  write : c.resolver.writeTimeout ≠ 0
  period : c.resolver.cleanPeriod ≠ 0
  cleaned : c.resolver.entriesCleaned ≠ 0

end Ariadne.Spec
