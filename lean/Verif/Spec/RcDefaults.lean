/-!
# The documented values of numeric parameters that are not set

From the manual, `deadwood-github/doc/Deadwood.txt` (the lines are given).
-/

namespace Spec
namespace Rc

def documented : List (String × Nat) := [
  ("dns_port", 53),                  -- 205
  ("filter_rfc1918", 1),             -- 241
  ("handle_noreply", 1),             -- 253
  ("handle_overload", 1),            -- 260
  ("maradns_uid", 707),              -- 325
  ("maradns_gid", 707),              -- 331
  ("max_ar_chain", 1),               -- 347
  ("max_inflights", 8),              -- 366
  ("max_ttl", 86400),                -- 373
  ("maximum_cache_elements", 1024),  -- 384
  ("maxprocs", 1024),                -- 405
  ("max_tcp_procs", 8),              -- 409
  ("num_retries", 5),                -- 421
  ("recurse_min_bind_port", 15000),  -- 470
  ("recurse_number_ports", 4096),    -- 477
  ("reject_aaaa", 0),                -- 498
  ("reject_mx", 1),                  -- 503
  ("reject_ptr", 0),                 -- 535
  ("resurrections", 1),              -- 541
  ("rfc8482", 1),                    -- 547
  ("tcp_listen", 0),                 -- 583
  ("timeout_seconds", 1),            -- 588
  ("timeout_seconds_tcp", 4),        -- 594
  ("ttl_age", 1),                    -- 602
  ("upstream_port", 53),             -- 607
  ("verbose_level", 3)]              -- 665

end Rc
end Spec
