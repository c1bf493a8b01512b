## 4 What is not modelled
* tinyxml2 (from text to XML tree) and urdfdom (their results are inputs of C55 and C58), plugin loading and class lookup (assumed to succeed in
  `load`), ROS parameters, node options, remappings, services' message conversion, texts and number formatting of the diagnostics, publishers, introspection beyond its registrations (C82, C83), logging.
* Asynchronous controllers and hardware components are modelled on their own (C62, C53) under stated assumptions about
  `realtime_tools::AsyncFunctionHandler`; the models of the two managers use synchronous ones (C22: when they are triggered).
* Range sensor's float rounding and message headers of semantic components, thread priorities, affinity and memory locking of `ros2_control_node`, drawing, pop-ups and settings of rqt_controller_manager (the rest is C77), the connection handling of ros2controlcli (its verbs are C68; the two views C76; the lists C78), command line parsing (argparse) of ros2controlcli except `switch_controllers` (C85) (spawner C73, unspawner and hardware_spawner C81), YAML parsing of the Python tools (the rest of spawner, unspawner and hardware_spawner is C59).
* Memory model weaker than sequential consistency, real-time deadlines, lock contention (outcomes of try-locks are inputs).
* Floating-point rounding outside of the joint limiters (C69), the statistics (C71) and the transmissions (C72): interpolation of the mock. The sign of zero.
* Values in the interfaces (C74): asynchronous controllers and components writing from their own threads, service calls whose
  callbacks run in the middle of a cycle, two handles sharing one `double *`.
